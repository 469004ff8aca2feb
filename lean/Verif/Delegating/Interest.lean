import Verif.Delegating.Props

/-! Properties C52 and C53: the value of the interest that is paid, and what the accumulation query shows. -/
namespace Verif.Delegating
open Verif.Util Verif.Bank

/-! ### Specification -/

/-- `q` is the daily rate of an account with `d` delegated coins: a thirtieth of the percentages in the row with the greatest start
not above `d`; nothing for dust. -/
def IsRate (dust : Int) (table : List Row) (d : Int) (profile validator vpn storage : Bool) (q : ℚ) : Prop :=
  ∃ r base bv bp bn bs, (r ∈ table ∧ (r.start : Int) ≤ d ∧ ∀ r' ∈ table, (r'.start : Int) ≤ d → r'.start ≤ r.start) ∧
    r.list = [base, bv, bp, bn, bs] ∧
    q = if d ≤ dust then 0 else
      (base.toRat + (if validator then bv.toRat else 0) + (if profile then bp.toRat else 0)
        + (if vpn then bn.toRat else 0) + (if storage then bs.toRat else 0)) / 30

/-- The rate of an account in a state. -/
def RateOf (e : Env) (s : State) (a : Addr) (q : ℚ) : Prop :=
  ∃ p v n st, e.profile a = some p ∧ e.validator a = some v ∧ e.earner a = some (n, st) ∧
    IsRate s.bank.params.dustDelegation s.params.table (balance s.bank a).delegated p v n st q

/-- The part of the day before `next` that has passed: the day began at `next - day`. -/
def passed (now day next : Int) : ℚ := (now - (next - day)) / day

/-! ### Lemmas -/

theorem add_inv {x y z : Frac} (h : x.add? y = some z) : x.denom ≠ 0 ∧ y.denom ≠ 0 := by
  by_contra hh
  rw [C02_zero_denominator_panics x y (by
    by_cases hx : x.denom = 0
    · exact Or.inl hx
    · exact Or.inr (by_contra fun hy => hh ⟨hx, hy⟩))] at h
  cases h

theorem sumBonuses_value {d : Int} {table : List Row} {l : List Frac} (hl : ∀ i, i < l.length →
    bonusAt? d i ⟨0, 1⟩ table = l[i]?) (flags : List Bool) (i : Nat) (acc z : Frac)
    (hacc : acc.denom ≠ 0) (hlen : i + flags.length ≤ l.length) (h : sumBonuses? d table i flags acc = some z) :
    z.denom ≠ 0 ∧ z.toRat = acc.toRat + flagSum (l.drop i) flags := by
  induction flags generalizing i acc with
  | nil =>
    simp only [sumBonuses?, Option.some.injEq] at h
    subst h
    refine ⟨hacc, ?_⟩
    cases l.drop i <;> simp [flagSum]
  | cons v vs ih =>
    simp only [List.length_cons] at hlen
    have hi : i < l.length := by omega
    have hdrop : l.drop i = l[i] :: l.drop (i + 1) := List.drop_eq_getElem_cons hi
    cases v with
    | false =>
      simp only [sumBonuses?, Bool.false_eq_true, if_false] at h
      obtain ⟨h2, h3⟩ := ih (i + 1) acc hacc (by omega) h
      refine ⟨h2, ?_⟩
      rw [h3, hdrop]; simp [flagSum]
    | true =>
      have hb : bonusAt? d i ⟨0, 1⟩ table = some l[i] := by rw [hl i hi, List.getElem?_eq_getElem hi]
      simp only [sumBonuses?, if_true, hb, Option.bind_eq_bind, Option.bind_some, Option.bind_eq_some_iff] at h
      obtain ⟨z0, a1, h⟩ := h
      obtain ⟨z0', b1, a2, -, -, -, a6⟩ := Frac.add?_spec acc l[i] hacc (add_inv a1).2
      rw [a1] at b1
      injection b1 with b1
      subst b1
      obtain ⟨h2, h3⟩ := ih (i + 1) z0 a2.ne' (by omega) h
      refine ⟨h2, ?_⟩
      rw [h3, hdrop, a6]; simp [flagSum]; ring

theorem percent_value {dust d : Int} {table : List Row} (hv : validateTable table = true) (h0 : 0 ≤ d) {p v n st : Bool} {q : Frac}
    (h : percent? dust table d p v n st = some q) : q.denom ≠ 0 ∧ IsRate dust table d p v n st q.toRat := by
  obtain ⟨r, ha, hb⟩ := table_bonus hv h0
  have hlen : r.list.length = 5 := by
    unfold validateTable at hv
    rw [Bool.and_eq_true] at hv
    exact (rows_len hv.2 r ha.1).1
  match hl : r.list, hlen with
  | [b1, b2, b3, b4, b5], _ =>
    simp only [percent?, Option.bind_eq_bind, Option.bind_eq_some_iff] at h
    obtain ⟨d64, hd, h⟩ := h
    obtain ⟨rfl, -⟩ := sdkInt64_some hd
    split at h
    · next hdust =>
      injection h with h
      subst h
      exact ⟨by simp, r, b1, b2, b3, b4, b5, ha, hl, by simp [hdust, Frac.toRat]⟩
    · next hdust =>
      simp only [Option.bind_eq_some_iff] at h
      obtain ⟨z, hz, q0, hq0, hq⟩ := h
      obtain ⟨z2, z3⟩ := sumBonuses_value (l := r.list) (fun i hi => hb i (by rw [hl] at hi; simpa using hi)) _ _ _ _ (by simp)
        (by simp [hl]) hz
      obtain ⟨q0', q1, q2, -, q4⟩ := Frac.div?_spec z ⟨30, 1⟩ z2 (by simp) (by simp)
      rw [hq0] at q1
      injection q1 with q1
      subst q1
      obtain ⟨q', w1, w2, -, w4⟩ := Frac.reduce?_spec q0 q2.ne'
      rw [hq] at w1
      injection w1 with w1
      subst w1
      refine ⟨w2.ne', r, b1, b2, b3, b4, b5, ha, hl, ?_⟩
      rw [w4, q4, z3, if_neg hdust, hl]
      simp only [flagSum, if_true, List.drop_zero]
      simp only [Frac.toRat]
      ring

theorem IsRate.unique {dust d : Int} {table : List Row} {p v n st : Bool} {q q' : ℚ} (hv : validateTable table = true)
    (h0 : 0 ≤ d) (h : IsRate dust table d p v n st q) (h' : IsRate dust table d p v n st q') : q = q' := by
  obtain ⟨r, b1, b2, b3, b4, b5, ha, hl, hq⟩ := h
  obtain ⟨r', c1, c2, c3, c4, c5, ha', hl', hq'⟩ := h'
  obtain ⟨x, -, hx⟩ := C21_every_amount_has_a_row table hv d h0
  have e : r = r' := (hx r ha).trans (hx r' ha').symm
  subst e
  rw [hl] at hl'
  injection hl' with k1 hl'
  injection hl' with k2 hl'
  injection hl' with k3 hl'
  injection hl' with k4 hl'
  injection hl' with k5 hl'
  rw [hq, hq', k1, k2, k3, k4, k5]

theorem IsRate.nonneg {dust d : Int} {table : List Row} {p v n st : Bool} {q : ℚ} (hv : validateTable table = true)
    (h : IsRate dust table d p v n st q) : 0 ≤ q := by
  obtain ⟨r, b1, b2, b3, b4, b5, ha, hl, hq⟩ := h
  have hneg : ∀ b ∈ r.list, 0 ≤ b.toRat := by
    intro b hb
    unfold validateTable at hv
    rw [Bool.and_eq_true] at hv
    have := (rows_len hv.2 r ha.1).2 b hb
    by_cases hd : b.denom = 0
    · simp [Frac.toRat, hd]
    · by_contra hh
      rw [(Frac.isNegative_iff b hd).2 (not_le.1 hh)] at this
      cases this
  rw [hl] at hneg
  have k1 := hneg b1 (by simp)
  have k2 := hneg b2 (by simp)
  have k3 := hneg b3 (by simp)
  have k4 := hneg b4 (by simp)
  have k5 := hneg b5 (by simp)
  rw [hq]
  split_ifs <;> positivity

theorem flags_inv {e : Env} {a : Addr} {f : Bool × Bool × Bool × Bool} (h : flags? e a = some f) :
    e.profile a = some f.1 ∧ e.validator a = some f.2.1 ∧ e.earner a = some f.2.2 := by
  unfold flags? at h
  simp only [Option.bind_eq_bind, Option.bind_eq_some_iff] at h
  obtain ⟨p, hp, v, hv, ⟨n, st⟩, he, h⟩ := h
  injection h with h
  subst h
  exact ⟨hp, hv, he⟩

theorem dayPart_value {now day next : Int} {x : Frac} (hd : 0 < day) (h : dayPart? now day next = some x) :
    x.denom ≠ 0 ∧ x.toRat = passed now day next := by
  simp only [dayPart?, Option.bind_eq_bind, Option.bind_eq_some_iff] at h
  obtain ⟨r, hr, h⟩ := h
  obtain ⟨r', w1, w2, -, w4⟩ := Frac.reduce?_spec ⟨next - now, day⟩ (by simpa using hd.ne')
  rw [hr] at w1
  injection w1 with w1
  subst w1
  obtain ⟨x', s1, s2, -, -, -, s6⟩ := Frac.sub?_spec (Frac.ofInt 1) r (by simp [Frac.ofInt]) w2.ne'
  rw [h] at s1
  injection s1 with s1
  subst s1
  refine ⟨s2.ne', ?_⟩
  have hq : (day : ℚ) ≠ 0 := by exact_mod_cast hd.ne'
  rw [s6, w4]
  simp only [Frac.ofInt, Frac.toRat, passed]
  push_cast
  field_simp
  ring

/-- The exact part of a day an account is paid for: what has passed less the part it missed. -/
theorem paidPart_value {e : Env} {item : Record} {next : Int} {x : Frac} (hd : 0 < e.day)
    (hm : ∀ m, item.missedPart = some m → m.denom ≠ 0) (h : paidPart? e item next = some x) :
    x.denom ≠ 0 ∧ x.toRat = passed e.now e.day next - (item.missedPart.map Frac.toRat).getD 0 := by
  simp only [paidPart?, Option.bind_eq_bind, Option.bind_eq_some_iff] at h
  obtain ⟨dp, hdp, h⟩ := h
  obtain ⟨k1, k2⟩ := dayPart_value hd hdp
  cases hmm : item.missedPart with
  | none =>
    rw [hmm] at h
    injection h with h
    subst h
    exact ⟨k1, by simp [k2]⟩
  | some m =>
    rw [hmm] at h
    obtain ⟨x', s1, s2, -, -, -, s6⟩ := Frac.sub?_spec dp m k1 (hm m hmm)
    simp only at h
    rw [h] at s1
    injection s1 with s1
    subst s1
    exact ⟨s2.ne', by rw [s6, k2]; rfl⟩

theorem mulInt_value {x y : Frac} {d v : Int} (hx : x.denom ≠ 0) (h0 : 0 ≤ x.toRat * d) (h1 : x.toRat * d < 2 ^ 63)
    (hy : x.mulInt? d = some y) (hv : y.int64? = some v) : v = ⌊x.toRat * d⌋ := by
  obtain ⟨z, e1, e2⟩ := mulInt_int64 x d hx h0 h1
  rw [hy] at e1
  injection e1 with e1
  subst e1
  rw [hv] at e2
  injection e2

theorem reduce_value {x y : Frac} (hx : x.denom ≠ 0) (h : x.reduce? = some y) : y.denom ≠ 0 ∧ y.toRat = x.toRat := by
  obtain ⟨z, w1, w2, -, w4⟩ := Frac.reduce?_spec x hx
  rw [h] at w1
  injection w1 with w1
  subst w1
  exact ⟨w2.ne', w4⟩

theorem mul_value {x y z : Frac} (hx : x.denom ≠ 0) (hy : y.denom ≠ 0) (h : x.mul? y = some z) :
    z.denom ≠ 0 ∧ z.toRat = x.toRat * y.toRat := by
  obtain ⟨z', w1, w2, -, w4⟩ := Frac.mul?_spec x y hx hy
  rw [h] at w1
  injection w1 with w1
  subst w1
  exact ⟨w2.ne', w4⟩

/-- The interest computed for a part of a day. -/
theorem interest_value {e : Env} {s : State} {a : Addr} {item : Record} {next i j : Int} (hd : 0 < e.day)
    (hv : validateTable s.params.table = true) (h0 : 0 ≤ (balance s.bank a).delegated)
    (hm : ∀ m, item.missedPart = some m → m.denom ≠ 0) (h : interest? e s a item next = some (i, j)) :
    ∃ q, RateOf e s a q ∧ 0 ≤ q ∧ ∀ part, part = passed e.now e.day next - (item.missedPart.map Frac.toRat).getD 0 → 0 ≤ part →
      q * part * (balance s.bank a).delegated < 2 ^ 63 → part * (balance s.bank a).delegated < 2 ^ 63 →
      i = ⌊q * part * (balance s.bank a).delegated⌋ ∧ j = ⌊part * (balance s.bank a).delegated⌋ := by
  unfold interest? at h
  simp only [Option.bind_eq_bind, Option.bind_eq_some_iff] at h
  obtain ⟨dp, hdp, f, hf, pc, hpc, d64, hd64, x, hx, x', hx', y, hy, i', hi, z, hz, w, hw, j', hj, h⟩ := h
  injection h with h
  injection h with h1 h2
  subst h1 h2
  obtain ⟨f1, f2, f3⟩ := flags_inv hf
  obtain ⟨p1, p2⟩ := percent_value hv h0 hpc
  have q0 := p2.nonneg hv
  obtain ⟨d1, d2⟩ := paidPart_value hd hm hdp
  obtain ⟨rfl, -⟩ := sdkInt64_some hd64
  obtain ⟨x1, x2⟩ := mul_value p1 d1 hx
  obtain ⟨x3, x4⟩ := reduce_value x1 hx'
  obtain ⟨z1, z2⟩ := reduce_value d1 hz
  refine ⟨pc.toRat, ⟨_, _, _, _, f1, f2, f3, p2⟩, q0, ?_⟩
  rintro part rfl hp hl1 hl2
  have hdq : (0 : ℚ) ≤ ((balance s.bank a).delegated : ℤ) := by exact_mod_cast h0
  have e1 : x'.toRat = pc.toRat * (passed e.now e.day next - (item.missedPart.map Frac.toRat).getD 0) := by rw [x4, x2, d2]
  have e2 : z.toRat = passed e.now e.day next - (item.missedPart.map Frac.toRat).getD 0 := by rw [z2, d2]
  have r1 := mulInt_value (d := delegatedOf s a) x3 (by rw [e1]; exact mul_nonneg (mul_nonneg q0 hp) hdq) (by rw [e1]; exact hl1) hy hi
  have r2 := mulInt_value (d := delegatedOf s a) z1 (by rw [e2]; exact mul_nonneg hp hdq) (by rw [e2]; exact hl2) hw hj
  rw [e1] at r1
  rw [e2] at r2
  exact ⟨r1, r2⟩

/-- The interest computed for a full day. -/
theorem fullInterest_value {pc : Frac} {d i j : Int} {m : Option Frac} (hpc : pc.denom ≠ 0) (h0 : 0 ≤ pc.toRat) (hd : 0 ≤ d)
    (hlt : pc.toRat * d < 2 ^ 63) (hm : ∀ x, m = some x → x.denom ≠ 0 ∧ 0 ≤ x.toRat ∧ x.toRat ≤ 1)
    (h : fullInterest? pc d m = some (i, j)) :
    i = ⌊pc.toRat * d⌋ - ⌊(m.map Frac.toRat).getD 0 * ((⌊pc.toRat * d⌋ : ℤ) : ℚ)⌋ ∧ j = d - ⌊(m.map Frac.toRat).getD 0 * (d : ℚ)⌋ := by
  unfold fullInterest? at h
  simp only [Option.bind_eq_bind, Option.bind_eq_some_iff] at h
  obtain ⟨d64, hd64, z, hz, i', hi, h⟩ := h
  obtain ⟨rfl, hdl, hdu⟩ := sdkInt64_some hd64
  have hdq : (0 : ℚ) ≤ (d64 : ℚ) := by exact_mod_cast hd
  have ei := mulInt_value hpc (mul_nonneg h0 hdq) hlt hz hi
  have i0 : 0 ≤ i' := by rw [ei]; exact Int.floor_nonneg.2 (mul_nonneg h0 hdq)
  have i1 := int64_range hi
  cases m with
  | none =>
    simp only [Option.some.injEq, Prod.mk.injEq] at h
    obtain ⟨rfl, rfl⟩ := h
    simp [ei]
  | some x =>
    obtain ⟨x0, x1, x2⟩ := hm x rfl
    simp only [Option.bind_eq_some_iff] at h
    obtain ⟨mz, hmz, mi, hmi, mw, hmw, mj, hmj, h⟩ := h
    simp only [Option.some.injEq, Prod.mk.injEq] at h
    obtain ⟨rfl, rfl⟩ := h
    have iq : (0 : ℚ) ≤ (i' : ℚ) := by exact_mod_cast i0
    have iu : (i' : ℚ) < 2 ^ 63 := by exact_mod_cast i1.2
    have du : (d64 : ℚ) < 2 ^ 63 := by exact_mod_cast hdu
    have emi := mulInt_value x0 (mul_nonneg x1 iq) (by nlinarith) hmz hmi
    have emj := mulInt_value x0 (mul_nonneg x1 hdq) (by nlinarith) hmw hmj
    have b1 : 0 ≤ mi ∧ mi ≤ i' := by
      refine ⟨by rw [emi]; exact Int.floor_nonneg.2 (mul_nonneg x1 iq), ?_⟩
      rw [emi]
      have : ((⌊x.toRat * (i' : ℚ)⌋ : ℤ) : ℚ) ≤ (i' : ℚ) := (Int.floor_le _).trans (by nlinarith)
      exact_mod_cast this
    have b2 : 0 ≤ mj ∧ mj ≤ d64 := by
      refine ⟨by rw [emj]; exact Int.floor_nonneg.2 (mul_nonneg x1 hdq), ?_⟩
      rw [emj]
      have : ((⌊x.toRat * (d64 : ℚ)⌋ : ℤ) : ℚ) ≤ (d64 : ℚ) := (Int.floor_le _).trans (by nlinarith)
      exact_mod_cast this
    rw [wrap64_eq ⟨by omega, by omega⟩, wrap64_eq ⟨by omega, by omega⟩]
    constructor
    · simp only [Option.map_some, Option.getD_some]
      rw [← ei, emi]
    · simp only [Option.map_some, Option.getD_some]
      rw [emj]

/-! ### C52 -/

/-- C52, the daily task: when it succeeds, the account is paid for the whole day at its rate `q` – less the part `m` it
missed, if a migration recorded one – and the beneficiaries' bonuses are computed from the delegation, less the same part. -/
theorem C52_full_day (e : Env) (he : EnvOk e) (a : Addr) (time : Int) (s t : State) (hc : Core s)
    (hv : validateTable s.params.table = true) (m : ℚ) (hm : m = ((getRecord s a).missedPart.map Frac.toRat).getD 0)
    (hm0 : ∀ x, (getRecord s a).missedPart = some x → x.denom ≠ 0) (hm1 : 0 ≤ m ∧ m ≤ 1)
    (h : performAccrue e a time s = (.ok (), t)) :
    ∃ q, RateOf e s a q ∧ 0 ≤ q ∧ (q = 0 → t.bank = s.bank) ∧
      (q ≠ 0 → q * (balance s.bank a).delegated < 2 ^ 63 → ∃ t', t'.bank = t.bank ∧
        Paid e a (⌊q * (balance s.bank a).delegated⌋ - ⌊m * ((⌊q * (balance s.bank a).delegated⌋ : ℤ) : ℚ)⌋)
          ((balance s.bank a).delegated - ⌊m * (balance s.bank a).delegated⌋) s t') := by
  have hd0 : 0 ≤ (balance s.bank a).delegated := hc.nonneg a .delegated
  have h' := h
  unfold performAccrue at h
  obtain ⟨-, g1⟩ := M.panicIf_bind_ok.1 (M.get_bind_ok.1 h)
  obtain ⟨f, hf, g2⟩ := M.orPanic_bind_ok.1 g1
  obtain ⟨pc, hpc, g3⟩ := M.orPanic_bind_ok.1 g2
  obtain ⟨f1, f2, f3⟩ := flags_inv hf
  obtain ⟨p1, p2⟩ := percent_value hv hd0 hpc
  have q0 := p2.nonneg hv
  have hz : pc.isZero = true ↔ pc.toRat = 0 := by
    unfold Frac.isZero Frac.toRat
    have : (pc.denom : ℚ) ≠ 0 := by exact_mod_cast p1
    simp [this]
  refine ⟨pc.toRat, ⟨_, _, _, _, f1, f2, f3, p2⟩, q0, ?_, ?_⟩
  · intro hq
    rw [if_pos (hz.2 hq)] at g3
    simp only [M.modify_apply, Prod.mk.injEq] at g3
    rw [← g3.2]
  · intro hq hlt
    rw [if_neg (fun hh => hq (hz.1 hh))] at g3
    obtain ⟨⟨i, j⟩, hij, g4⟩ := M.orPanic_bind_ok.1 g3
    obtain ⟨ei, ej⟩ := fullInterest_value p1 q0 hd0 hlt (fun x hx => by
      refine ⟨hm0 x hx, ?_⟩
      rw [hm, hx] at hm1; exact hm1) hij
    obtain ⟨_, s1, h1, g5⟩ := M.bind_ok_iff.1 g4
    obtain ⟨_, s2, h2, g6⟩ := M.bind_ok_iff.1 g5
    obtain ⟨_, s3, h3, g7⟩ := M.bind_ok_iff.1 g6
    simp only [M.modify_apply, Prod.mk.injEq] at g7
    obtain ⟨-, rfl⟩ := g7
    have hi : 0 ≤ i := by
      by_contra hneg
      simp only [accrue, if_neg (show i ≠ 0 by omega), flags_profile hf] at h1
      have := (M.panicIf_bind_ok.1 h1).1
      simp at this
      exact hneg this
    obtain ⟨ri, rj⟩ := fullInterest_range hij
    have hp := pay_exact he hc hi ri.2 rj (flags_profile hf) h1 h2
    rw [← hm] at ei ej
    rw [ei, ej] at hp
    refine ⟨s2, ?_, hp⟩
    unfold onSched at h3
    split at h3
    · simp only [Prod.mk.injEq] at h3
      rw [← h3.2]
    · cases h3

/-- C52, the daily task, afterwards: the record says when the next day ends and no longer has a missed part, so that a missed part
is deducted once; an account without interest is not looked at again.  The requests for revocation stay. -/
theorem C52_next_day (e : Env) (a : Addr) (time : Int) (s t : State) (hc : Core s) (hv : validateTable s.params.table = true)
    (h : performAccrue e a time s = (.ok (), t)) :
    (getRecord s a).nextAccrue = some time ∧ ∃ q, RateOf e s a q ∧
      (q = 0 → getRecord t a = { getRecord s a with nextAccrue := none }) ∧
      (q ≠ 0 → getRecord t a = { getRecord s a with nextAccrue := some (time + e.day), missedPart := none }) := by
  have hd0 : 0 ≤ (balance s.bank a).delegated := hc.nonneg a .delegated
  unfold performAccrue at h
  obtain ⟨g0, g1⟩ := M.panicIf_bind_ok.1 (M.get_bind_ok.1 h)
  obtain ⟨f, hf, g2⟩ := M.orPanic_bind_ok.1 g1
  obtain ⟨pc, hpc, g3⟩ := M.orPanic_bind_ok.1 g2
  obtain ⟨f1, f2, f3⟩ := flags_inv hf
  obtain ⟨p1, p2⟩ := percent_value hv hd0 hpc
  have hz : pc.isZero = true ↔ pc.toRat = 0 := by
    unfold Frac.isZero Frac.toRat
    have : (pc.denom : ℚ) ≠ 0 := by exact_mod_cast p1
    simp [this]
  refine ⟨by simpa using g0, pc.toRat, ⟨_, _, _, _, f1, f2, f3, p2⟩, ?_, ?_⟩
  · intro hq
    rw [if_pos (hz.2 hq)] at g3
    simp only [M.modify_apply, Prod.mk.injEq] at g3
    rw [← g3.2]
    unfold getRecord
    simp
  · intro hq
    rw [if_neg (fun hh => hq (hz.1 hh))] at g3
    obtain ⟨⟨i, j⟩, hij, g4⟩ := M.orPanic_bind_ok.1 g3
    obtain ⟨_, s1, h1, g5⟩ := M.bind_ok_iff.1 g4
    obtain ⟨_, s2, h2, g6⟩ := M.bind_ok_iff.1 g5
    obtain ⟨_, s3, h3, g7⟩ := M.bind_ok_iff.1 g6
    simp only [M.modify_apply, Prod.mk.injEq] at g7
    obtain ⟨-, rfl⟩ := g7
    unfold getRecord
    simp

/-- Exactly the interest for the `part` of a day is paid at the rate `q`; nothing if that is less than one coin. -/
def PaidFor (e : Env) (a : Addr) (q part : ℚ) (s t : State) : Prop :=
  (⌊q * part * (balance s.bank a).delegated⌋ ≤ 0 ∧ t.bank = s.bank) ∨
  (0 < ⌊q * part * (balance s.bank a).delegated⌋ ∧ ∃ t', t'.bank = t.bank ∧
    Paid e a ⌊q * part * (balance s.bank a).delegated⌋ ⌊part * (balance s.bank a).delegated⌋ s t')

/-- C52, before a delegation or a revocation: the account is paid for the part of the day that has passed, less the part it
missed. -/
theorem C52_part_day (e : Env) (he : EnvOk e) (a : Addr) (item item' : Record) (np next : Int) (s t : State) (hc : Core s)
    (hv : validateTable s.params.table = true) (hn : item.nextAccrue = some next)
    (m : ℚ) (hm : m = (item.missedPart.map Frac.toRat).getD 0) (hm0 : ∀ x, item.missedPart = some x → x.denom ≠ 0)
    (hp : m ≤ passed e.now e.day next) (h : accruePart e a item np s = (.ok item', t)) :
    ∃ q, RateOf e s a q ∧ 0 ≤ q ∧
      (q * (passed e.now e.day next - m) * (balance s.bank a).delegated < 2 ^ 63 →
        (passed e.now e.day next - m) * (balance s.bank a).delegated < 2 ^ 63 →
        PaidFor e a q (passed e.now e.day next - m) s t) := by
  have hd0 : 0 ≤ (balance s.bank a).delegated := hc.nonneg a .delegated
  rcases C22_part_day_accrual_exact_partial e he a item item' np s t hc h with ⟨h1, -⟩ | ⟨next', i, j, h1, h2, h3⟩
  · rw [hn] at h1; cases h1
  · rw [hn] at h1
    injection h1 with h1
    subst h1
    obtain ⟨q, k1, k2, k3⟩ := interest_value he.day hv hd0 hm0 h2
    refine ⟨q, k1, k2, fun l1 l2 => ?_⟩
    obtain ⟨rfl, rfl⟩ := k3 _ (by rw [hm]) (sub_nonneg.2 hp) l1 l2
    exact h3

/-! ### No part of a day is missed

`MissedPart` is written by a migration only (app/upgrade.go:371, 378), so on a chain started from genesis it is never set. -/

/-- No record has a missed part. -/
def NoMissed (s : State) : Prop := ∀ x, (getRecord s x).missedPart = none

/-- `m` keeps `NoMissed`, and the values it returns satisfy `Q`. -/
def Clean {α : Type} (Q : α → Prop) (m : M State α) : Prop :=
  ∀ s, NoMissed s → NoMissed (m s).2 ∧ ∀ v, (m s).1 = .ok v → Q v

theorem Clean.bind {α β : Type} {Q : α → Prop} {R : β → Prop} {m : M State α} {f : α → M State β} (h : Clean Q m)
    (g : ∀ v, Q v → Clean R (f v)) : Clean R (m >>= f) := by
  intro s hs
  obtain ⟨h1, h2⟩ := h s hs
  show NoMissed ((M.bind m f) s).2 ∧ ∀ v, ((M.bind m f) s).1 = .ok v → R v
  unfold M.bind
  rcases hm : m s with ⟨r, t⟩
  rw [hm] at h1 h2
  cases r with
  | ok v => exact g v (h2 v rfl) t h1
  | err => exact ⟨h1, fun v hv => by cases hv⟩
  | panic => exact ⟨h1, fun v hv => by cases hv⟩

theorem Clean.of_records {α : Type} {m : M State α} (h : ∀ r, M.Preserves (fun z : State => z.records = r) m) : Clean (fun _ => True) m := by
  intro s hs
  refine ⟨fun x => ?_, fun _ _ => trivial⟩
  have := h s.records s rfl
  unfold getRecord
  rw [this]; exact hs x

theorem Clean.get : Clean NoMissed (M.get : M State State) := by
  intro s hs
  exact ⟨hs, fun v hv => by injection hv with hv; rw [← hv]; exact hs⟩

theorem Clean.pure {α : Type} {Q : α → Prop} {v : α} (h : Q v) : Clean Q (pure v : M State α) := by
  intro s hs
  exact ⟨hs, fun w hw => by injection hw with hw; rw [← hw]; exact h⟩

theorem Clean.set {a : Addr} {item : Record} (h : item.missedPart = none) :
    Clean (fun _ => True) (M.modify (fun s : State => { s with records := s.records.set a item })) := by
  intro s hs
  refine ⟨fun x => ?_, fun _ _ => trivial⟩
  show ((s.records.set a item).get x |>.getD {}).missedPart = none
  rw [KV.get_set]
  split
  · exact h
  · exact hs x

theorem Clean.weaken {α : Type} {Q : α → Prop} {m : M State α} (h : Clean Q m) : Clean (fun _ => True) m :=
  fun s hs => ⟨(h s hs).1, fun _ _ => trivial⟩

theorem Clean.tx {m : M State Unit} (h : Clean (fun _ => True) m) {s : State} (hs : NoMissed s) : NoMissed (M.tx m s) := by
  rcases M.tx_cases m s with ⟨w, hw⟩ | ⟨-, hw⟩
  · have := (h s hs).1
    rw [hw] at this
    exact this
  · rw [hw]; exact hs

theorem accruePart_clean (e : Env) (a : Addr) (item : Record) (np : Int) (h : item.missedPart = none) :
    Clean (fun i : Record => i.missedPart = none) (accruePart e a item np) := by
  intro s hs
  refine ⟨((Clean.of_records fun r => accruePart_records e a item np r) s hs).1, fun v hv => ?_⟩
  have hv' : accruePart e a item np s = (.ok v, (accruePart e a item np s).2) := by rw [← hv]
  unfold accruePart at hv'
  cases hn : item.nextAccrue with
  | none =>
    rw [hn] at hv'
    simp only [M.pure_apply, Prod.mk.injEq, Res.ok.injEq] at hv'
    rw [← hv'.1]; exact h
  | some next =>
    rw [hn] at hv'
    obtain ⟨_, _, -, g⟩ := M.bind_ok_iff.1 hv'
    obtain ⟨_, _, -, g⟩ := M.bind_ok_iff.1 g
    obtain ⟨_, _, -, g⟩ := M.bind_ok_iff.1 g
    obtain ⟨_, _, -, g⟩ := M.bind_ok_iff.1 g
    simp only [M.pure_apply, Prod.mk.injEq, Res.ok.injEq] at g
    rw [← g.1]

theorem planAccrue_clean (e : Env) (a : Addr) (d : Int) (item : Record) (h : item.missedPart = none) :
    Clean (fun i : Record => i.missedPart = none) (planAccrue e a d item) := by
  intro s hs
  refine ⟨((Clean.of_records fun r => planAccrue_records e a d item r) s hs).1, fun v hv => ?_⟩
  have hv' : planAccrue e a d item s = (.ok v, (planAccrue e a d item s).2) := by rw [← hv]
  exact (planAccrue_item hv').2.1.trans h

theorem panicIf_clean (b : Bool) : Clean (fun _ => True) (M.panicIf b : M State Unit) := .of_records fun _ => .panicIf _
theorem errIf_clean (b : Bool) : Clean (fun _ => True) (M.errIf b : M State Unit) := .of_records fun _ => .errIf _
theorem orPanic_clean {α : Type} (o : Option α) : Clean (fun _ => True) (M.orPanic o : M State α) := .of_records fun _ => .orPanic _

theorem revoke_clean (e : Env) (a : Addr) (u : Int) (x : Bool) : Clean (fun _ => True) (revoke e a u x) := by
  unfold revoke
  split
  · exact .pure trivial
  · refine .bind .get fun s hs => .bind (errIf_clean _) fun _ _ => .bind (accruePart_clean _ _ _ _ (hs a)) fun i hi =>
      .bind (orPanic_clean _) fun _ _ => .bind (Q := fun _ => True) (.of_records fun r => ?_) fun _ _ =>
      .bind (planAccrue_clean _ _ _ _ hi) fun i' hi' => .bind (.set hi') fun _ _ => .of_records fun r => onSched_records _ r
    unfold freeze
    split
    · exact .pure _
    · exact convert_records _ _ _ _ _

theorem delegateMsg_clean (e : Env) (a : Addr) (u : Int) : Clean (fun _ => True) (delegateMsg e a u) := by
  unfold delegateMsg
  refine .bind .get fun _ _ => .bind (errIf_clean _) fun _ _ => .bind (panicIf_clean _) fun _ _ =>
    .bind (Q := fun _ => True) (.of_records fun r => onBank_records _ r) fun _ _ => .bind .get fun s hs =>
    .bind (accruePart_clean _ _ _ _ (hs a)) fun i hi => .bind (Q := fun _ => True) (.of_records fun r => ?_) fun _ _ =>
    .bind .get fun _ _ => .bind (planAccrue_clean _ _ _ _ hi) fun _ hi' => .set hi'
  unfold delegate
  split
  · exact .pure _
  · exact convert_records _ _ _ _ _

theorem performAccrue_clean (e : Env) (a : Addr) (time : Int) : Clean (fun _ => True) (performAccrue e a time) := by
  unfold performAccrue
  refine .bind .get fun s hs => .bind (panicIf_clean _) fun _ _ => .bind (orPanic_clean _) fun _ _ =>
    .bind (orPanic_clean _) fun _ _ => ?_
  split
  · exact .set (hs a)
  · exact .bind (orPanic_clean _) fun _ _ => .bind (.of_records fun r => accrue_records _ _ _ r) fun _ _ =>
      .bind (.of_records fun r => accrueToValidator_records _ _ _ r) fun _ _ =>
      .bind (.of_records fun r => onSched_records _ r) fun _ _ => .set rfl

theorem payDue_clean (e : Env) (a : Addr) : ∀ l, Clean (fun _ => True) (payDue e a l)
  | [] => .pure trivial
  | r :: rs => by
    unfold payDue
    split
    · exact .pure trivial
    · refine .bind (Q := fun _ => True) (.of_records fun r => ?_) fun _ _ => payDue_clean e a rs
      unfold undelegate
      split
      · exact .pure _
      · exact convert_records _ _ _ _ _

theorem performRevoking_clean (e : Env) (a : Addr) : Clean (fun _ => True) (performRevoking e a) := by
  unfold performRevoking
  refine .bind .get fun s hs => ?_
  have ha := hs a
  unfold getRecord at ha
  cases h : s.records.get a with
  | none => exact .pure trivial
  | some item =>
    rw [h] at ha
    refine .bind (payDue_clean _ _ _) fun _ _ => ?_
    split
    · exact .pure trivial
    · exact .set ha

theorem onBanished_clean (e : Env) (a : Addr) : Clean (fun _ => True) (onBanished e a) := by
  unfold onBanished
  refine .bind .get fun s _ => ?_
  simp only
  split
  · exact .pure trivial
  · exact revoke_clean _ _ _ _

theorem Other.noMissed {P : Int} {e : Env} {s t : State} (h : Other P e s t) (hs : NoMissed s) : NoMissed t := by
  induction h with
  | refl => exact hs
  | foreign _ hf ih =>
    intro x
    unfold getRecord
    rw [hf.records]; exact ih x
  | banish a _ ih => exact (onBanished_clean e a _ ih).1

theorem runTask_noMissed {P : Int} {e : Env} {f : Schedule.Task → State → State} (hf : ∀ t x, Other P e x (f t x))
    (t : Schedule.Task) {s : State} (hs : NoMissed s) : NoMissed (runTask e f t s) := by
  unfold runTask
  split
  · split
    · exact (performRevoking_clean e _ s hs).1
    · split
      · exact (performAccrue_clean e _ _ s hs).1
      · exact (hf _ _).noMissed hs
  · split
    · exact hs
    · exact (hf _ _).noMissed hs

theorem runTasks_noMissed {P : Int} {e : Env} {f : Schedule.Task → State → State} (hf : ∀ t x, Other P e x (f t x)) :
    ∀ (l : List Schedule.Task) {s : State}, NoMissed s → NoMissed (runTasks e f l s)
  | [], _, hs => hs
  | t :: ts, _, hs => runTasks_noMissed hf ts (runTask_noMissed hf t hs)

theorem Step.noMissed {P : Int} {e : Env} {s t : State} (h : Step P e s t) (hs : NoMissed s) : NoMissed t := by
  cases h with
  | delegate a u =>
    refine Clean.tx ?_ hs
    exact .bind (errIf_clean _) fun _ _ => delegateMsg_clean _ _ _
  | revoke a u x =>
    refine Clean.tx ?_ hs
    exact .bind (errIf_clean _) fun _ _ => revoke_clean _ _ _ _
  | other ho => exact ho.noMissed hs
  | block f hf => exact runTasks_noMissed hf (dueTasks e.now s.sched) hs

/-- C52: on a chain started from genesis nothing is ever missed, so the `m` of `C52_full_day` and `C52_part_day` is zero. -/
theorem C52_nothing_missed (P : Int) (s : State) (h : Reachable P s) (a : Addr) : (getRecord s a).missedPart = none := by
  obtain ⟨s0, h1, h2⟩ := h
  have : NoMissed s := by
    induction h2 with
    | refl => intro x; simp [getRecord, h1.records]
    | step _ _ _ hs ih => exact hs.noMissed ih
  exact this a

/-! ### C53 -/

theorem int64_floor {x : Frac} {v : Int} (hx : 0 < x.denom) (h0 : 0 ≤ x.toRat) (h1 : x.toRat < 2 ^ 63) (h : x.int64? = some v) :
    v = ⌊x.toRat⌋ := by
  have hn : 0 ≤ x.num := by
    have hd : (0 : ℚ) < x.denom := by exact_mod_cast hx
    unfold Frac.toRat at h0
    rw [div_nonneg_iff] at h0
    rcases h0 with h | h
    · exact_mod_cast h.1
    · exact absurd h.2 (not_le.2 hd)
  have := Frac.int64?_eq x _ (Frac.bigInt?_floor x hx hn) ⟨by
    have : 0 ≤ ⌊x.toRat⌋ := Int.floor_nonneg.2 h0
    norm_num; omega, by rw [Int.floor_lt]; push_cast; exact h1⟩
  rw [h] at this
  injection this

/-- C53: what the accumulation query shows: the interest of the whole day and the interest up to now, both without the part
that was missed. -/
theorem C53_query (e : Env) (hd : 0 < e.day) (a : Addr) (s : State) (hv : validateTable s.params.table = true)
    (h0 : 0 ≤ (balance s.bank a).delegated) (m : ℚ) (hm : m = ((getRecord s a).missedPart.map Frac.toRat).getD 0)
    (hm0 : ∀ x, (getRecord s a).missedPart = some x → x.denom ≠ 0) (total cur : Int)
    (h : accumulation? e s a = some (some (total, cur))) :
    ∃ next q, (getRecord s a).nextAccrue = some next ∧ RateOf e s a q ∧ 0 ≤ q ∧
      (0 ≤ m → m ≤ 1 → m ≤ passed e.now e.day next → passed e.now e.day next ≤ 1 → q * (balance s.bank a).delegated < 2 ^ 63 →
        total = ⌊q * (1 - m) * (balance s.bank a).delegated⌋ ∧
        cur = ⌊q * (passed e.now e.day next - m) * (balance s.bank a).delegated⌋) := by
  unfold accumulation? at h
  have hnext : (s.records.get a).bind Record.nextAccrue = (getRecord s a).nextAccrue := by
    unfold getRecord
    cases s.records.get a <;> rfl
  rw [hnext] at h
  cases hn : (getRecord s a).nextAccrue with
  | none => rw [hn] at h; simp at h
  | some next =>
    rw [hn] at h
    simp only [Option.bind_eq_bind, Option.bind_eq_some_iff] at h
    obtain ⟨dp, hdp, f, hf, pc, hpc, d64, hd64, x, hx, tot, htot, c, hcur, h⟩ := h
    obtain ⟨f1, f2, f3⟩ := flags_inv hf
    obtain ⟨p1, p2⟩ := percent_value hv h0 hpc
    have q0 := p2.nonneg hv
    obtain ⟨rfl, -⟩ := sdkInt64_some hd64
    refine ⟨next, pc.toRat, rfl, ⟨_, _, _, _, f1, f2, f3, p2⟩, q0, ?_⟩
    intro m0 m1 mp pu hlt
    have hdq : (0 : ℚ) ≤ ((balance s.bank a).delegated : ℤ) := by exact_mod_cast h0
    obtain ⟨d1, d2⟩ := reduce_value (by simp only; omega) hdp
    have d3 : dp.toRat = passed e.now e.day next := by rw [d2]; simp [Frac.toRat, passed]
    obtain ⟨x1, x2⟩ := mul_value (y := Frac.ofInt (delegatedOf s a)) p1 (by simp [Frac.ofInt]) hx
    have x3 : x.toRat = pc.toRat * ((balance s.bank a).delegated : ℤ) := by rw [x2]; simp [Frac.ofInt, Frac.toRat, delegatedOf]
    obtain ⟨z, w1, w2, -, w4⟩ := Frac.reduce?_spec x x1
    rw [htot] at w1
    injection w1 with w1
    subst w1
    rw [x3] at w4
    obtain ⟨z, y1, y2, -, y4⟩ := Frac.mul?_spec tot dp w2.ne' d1
    rw [hcur] at y1
    injection y1 with y1
    subst y1
    rw [w4, d3] at y4
    have tq : (0 : ℚ) ≤ pc.toRat * ((balance s.bank a).delegated : ℤ) := mul_nonneg q0 hdq
    generalize passed e.now e.day next = p at *
    generalize hT : pc.toRat * ((balance s.bank a).delegated : ℤ) = T at *
    have r1 : pc.toRat * (1 - m) * ((balance s.bank a).delegated : ℤ) = T - m * T := by rw [← hT]; ring
    have r2 : pc.toRat * (p - m) * ((balance s.bank a).delegated : ℤ) = T * p - m * T := by rw [← hT]; ring
    rw [r1, r2]
    cases hmm : (getRecord s a).missedPart with
    | none =>
      rw [hmm] at h hm
      simp only [Option.map_none, Option.getD_none] at hm
      simp only [Option.bind_eq_some_iff, pure, Option.some.injEq, Prod.mk.injEq] at h
      obtain ⟨t1, ht1, t2, ht2, rfl, rfl⟩ := h
      subst hm
      have a1 := int64_floor w2 (by rw [w4]; exact tq) (by rw [w4]; exact hlt) ht1
      have a2 := int64_floor y2 (by rw [y4]; exact mul_nonneg tq mp) (by rw [y4]; nlinarith) ht2
      rw [w4] at a1
      rw [y4] at a2
      simp [a1, a2]
    | some mf =>
      rw [hmm] at h hm
      simp only [Option.map_some, Option.getD_some] at hm
      simp only [Option.bind_eq_some_iff, pure, Option.some.injEq, Prod.mk.injEq] at h
      obtain ⟨ms, hms, u1, hu1, t1, ht1, u2, hu2, t2, ht2, rfl, rfl⟩ := h
      obtain ⟨b1, b2⟩ := mul_value (hm0 mf hmm) w2.ne' hms
      rw [w4, ← hm] at b2
      obtain ⟨z, v1, v2, -, -, -, v6⟩ := Frac.sub?_spec tot ms w2.ne' b1
      rw [hu1] at v1
      injection v1 with v1
      subst v1
      obtain ⟨z, k1, k2, -, -, -, k6⟩ := Frac.sub?_spec c ms y2.ne' b1
      rw [hu2] at k1
      injection k1 with k1
      subst k1
      rw [w4, b2] at v6
      rw [y4, b2] at k6
      have a1 := int64_floor v2 (by rw [v6]; nlinarith) (by rw [v6]; nlinarith) ht1
      have a2 := int64_floor k2 (by rw [k6]; nlinarith) (by rw [k6]; nlinarith) ht2
      rw [v6] at a1
      rw [k6] at a2
      exact ⟨a1, a2⟩

/-! ### Messages -/

/-- Products with a part of a day stay in range when the product for the day does. -/
theorem part_lt {q p d : ℚ} (hq : 0 ≤ q) (hd : 0 ≤ d) (hp1 : p ≤ 1) (h : q * d < 2 ^ 63) :
    q * p * d < 2 ^ 63 := by
  have : 0 ≤ q * d := mul_nonneg hq hd
  nlinarith

theorem validate_table {p : Params} (h : p.validate? = some true) : validateTable p.table = true := by
  unfold Params.validate? at h
  split at h
  · cases h
  · simp only [Option.bind_eq_bind, Option.bind_eq_some_iff] at h
    obtain ⟨b1, -, h⟩ := h
    cases b1
    · cases h
    · simp only [Bool.not_true, Bool.false_eq_true, if_false, Option.bind_eq_some_iff] at h
      obtain ⟨b2, -, h⟩ := h
      cases b2
      · cases h
      · simpa using h

/-- C52, revocation: in a reachable state, an account with a running accrual period that revokes is first paid exactly the
interest for the part of the day that has passed; main coins change by nothing else. -/
theorem C52_paid_before_revocation (P : Int) (e : Env) (he : EnvOk e) (a : Addr) (u : Int) (express : Bool) (s t : State)
    (hs : Reachable P s) (next : Int) (hn : (getRecord s a).nextAccrue = some next) (hnow : next - e.day ≤ e.now ∧ e.now ≤ next)
    (hd : (balance s.bank a).delegated < 2 ^ 63) (h : msgRevoke e a u express s = (.ok (), t)) :
    ∃ q, RateOf e s a q ∧ 0 ≤ q ∧ (q * (balance s.bank a).delegated < 2 ^ 63 →
      ∃ si, PaidFor e a q (passed e.now e.day next) s si ∧ (∀ x, (balance t.bank x).main = (balance si.bank x).main) ∧
        t.bank.supply.main = si.bank.supply.main) := by
  have hg := hs.good
  have hday : (0 : ℚ) < e.day := by exact_mod_cast he.day
  have hd0 : (0 : ℚ) ≤ ((balance s.bank a).delegated : ℤ) := by exact_mod_cast hg.core.nonneg a .delegated
  have p0 : 0 ≤ passed e.now e.day next := div_nonneg (by
    have : (0 : ℤ) ≤ e.now - (next - e.day) := by omega
    exact_mod_cast this) hday.le
  have p1 : passed e.now e.day next ≤ 1 := by
    unfold passed
    rw [div_le_one hday]
    have : (e.now - (next - e.day) : ℤ) ≤ e.day := by omega
    exact_mod_cast this
  obtain ⟨-, -, -, -, -, -, -, -, -, -, -, -, item, si, h1, h2, h3⟩ := C20_revoke_exact e he a u express s t hg.core hg.params h
  have hmiss := C52_nothing_missed P s hs a
  obtain ⟨q, k1, k2, k3⟩ := C52_part_day e he a _ item _ next s si hg.core (validate_table hg.params) hn 0
    (by rw [hmiss]; rfl) (by rw [hmiss]; intro x hx; cases hx) p0 h1
  refine ⟨q, k1, k2, fun hlt => ⟨si, ?_, h2, h3⟩⟩
  rw [sub_zero] at k3
  refine k3 (part_lt k2 hd0 p1 hlt) ?_
  have := part_lt (q := 1) (by norm_num) hd0 p1 (by rw [one_mul]; exact_mod_cast hd)
  rwa [one_mul] at this

theorem RateOf.unique {e : Env} {s : State} {a : Addr} {q q' : ℚ} (hv : validateTable s.params.table = true)
    (h0 : 0 ≤ (balance s.bank a).delegated) (h : RateOf e s a q) (h' : RateOf e s a q') : q = q' := by
  obtain ⟨p, v, n, st, h1, h2, h3, h4⟩ := h
  obtain ⟨p', v', n', st', h1', h2', h3', h4'⟩ := h'
  rw [h1] at h1'
  rw [h2] at h2'
  rw [h3] at h3'
  injection h1' with h1'
  injection h2' with h2'
  injection h3' with h3'
  injection h3' with h3' h5'
  subst h1' h2' h3' h5'
  exact h4.unique hv h0 h4'

/-- C52, the daily task in a reachable state. -/
theorem C52_paid_daily (P : Int) (e : Env) (he : EnvOk e) (a : Addr) (time : Int) (s t : State) (hs : Reachable P s)
    (h : performAccrue e a time s = (.ok (), t)) :
    ∃ q, RateOf e s a q ∧ 0 ≤ q ∧ (q = 0 → t.bank = s.bank) ∧
      (q ≠ 0 → q * (balance s.bank a).delegated < 2 ^ 63 → ∃ t', t'.bank = t.bank ∧
        Paid e a ⌊q * (balance s.bank a).delegated⌋ (balance s.bank a).delegated s t') := by
  have hg := hs.good
  have hmiss := C52_nothing_missed P s hs a
  have := C52_full_day e he a time s t hg.core (validate_table hg.params) 0 (by rw [hmiss]; rfl)
    (by rw [hmiss]; intro x hx; cases hx) (by norm_num) h
  simpa using this

/-- C52, delegation: after the fee for the delegation is paid (state `s1`), and before the coins become delegated, the account
is paid exactly the interest for the part of the day that has passed, on what it had delegated before. -/
theorem C52_paid_before_delegation (P : Int) (e : Env) (he : EnvOk e) (a : Addr) (u : Int) (s t : State)
    (hs : Reachable P s) (next : Int) (hn : (getRecord s a).nextAccrue = some next) (hnow : next - e.day ≤ e.now ∧ e.now ≤ next)
    (hd : (balance s.bank a).delegated < 2 ^ 63) (h : msgDelegate e a u s = (.ok (), t)) :
    ∃ q s1 fee, RateOf e s a q ∧ 0 ≤ q ∧ txFeeOf? s.bank.params ⟨u, 0, 0, 0⟩ = some fee ∧
      (∀ x, (balance s1.bank x).main =
        (balance s.bank x).main - (if x = a then fee else 0) + (if x = e.bank.splitCollector then fee else 0)) ∧
      (∀ x, (balance s1.bank x).delegated = (balance s.bank x).delegated) ∧
      (q * (balance s.bank a).delegated < 2 ^ 63 →
        ∃ s2, PaidFor e a q (passed e.now e.day next) s1 s2 ∧
          (∀ x, (balance t.bank x).main = (balance s2.bank x).main - (if x = a then u - fee else 0))) := by
  have hg := hs.good
  have hday : (0 : ℚ) < e.day := by exact_mod_cast he.day
  have hd0 : (0 : ℚ) ≤ ((balance s.bank a).delegated : ℤ) := by exact_mod_cast hg.core.nonneg a .delegated
  have p0 : 0 ≤ passed e.now e.day next := div_nonneg (by
    have : (0 : ℤ) ≤ e.now - (next - e.day) := by omega
    exact_mod_cast this) hday.le
  have p1 : passed e.now e.day next ≤ 1 := by
    unfold passed
    rw [div_le_one hday]
    have : (e.now - (next - e.day) : ℤ) ≤ e.day := by omega
    exact_mod_cast this
  obtain ⟨hpos, g⟩ := M.errIf_bind_ok.1 h
  obtain ⟨fee, s1, s2, hdel⟩ := delegate_ok he hg.core g
  obtain ⟨item, hi⟩ := hdel.accrued
  have hmiss := C52_nothing_missed P s hs a
  have par : s1.params = s.params := by rw [hdel.s1eq]
  have bp : s1.bank.params = s.bank.params := hdel.paid.params
  have del : ∀ x, (balance s1.bank x).delegated = (balance s.bank x).delegated := by
    intro x
    have := hdel.paid.bal x .delegated
    simpa [Coins.amt, feePaid, onMain] using this
  obtain ⟨q, k1, k2, k3⟩ := C52_part_day e he a _ item _ next s1 s2 hdel.core1
    (by rw [par]; exact validate_table hg.params) hn 0
    (by rw [hmiss]; rfl) (by rw [hmiss]; intro x hx; cases hx) p0 hi
  refine ⟨q, s1, fee, ?_, k2, hdel.rate, ?_, del, ?_⟩
  · unfold RateOf at k1
    rw [bp, par, del] at k1
    exact k1
  · intro x
    have h2 := hdel.paid.bal x .main
    simp only [Coins.amt, feePaid, onMain_main] at h2
    split_ifs at h2 ⊢ <;> omega
  · intro hlt
    refine ⟨s2, ?_, ?_⟩
    · rw [sub_zero, del] at k3
      refine k3 (part_lt k2 hd0 p1 hlt) ?_
      have := part_lt (q := 1) (by norm_num) hd0 p1 (by rw [one_mul]; exact_mod_cast hd)
      rwa [one_mul] at this
    · intro x
      have h1 := hdel.money.bal x .main
      simp only [Coins.amt, delegated] at h1
      split_ifs at h1 ⊢ <;> omega

/-- C53: in a reachable state, what the query shows as accumulated up to now is what the account is paid if it revokes at
that moment, and what it shows for the whole day is what it is paid if the daily task runs at that moment. -/
theorem C53_shown_is_paid (P : Int) (e : Env) (he : EnvOk e) (a : Addr) (s : State) (hs : Reachable P s) (total cur next : Int)
    (hn : (getRecord s a).nextAccrue = some next) (hnow : next - e.day ≤ e.now ∧ e.now ≤ next)
    (hd : (balance s.bank a).delegated < 2 ^ 63) (hq : ∀ q, RateOf e s a q → q * (balance s.bank a).delegated < 2 ^ 63)
    (h : accumulation? e s a = some (some (total, cur))) :
    (∀ u express t, msgRevoke e a u express s = (.ok (), t) → ∃ si, (∀ x, (balance t.bank x).main = (balance si.bank x).main) ∧
      ((cur = 0 ∧ si.bank = s.bank) ∨ (0 < cur ∧ ∃ base, Paid e a cur base s si))) ∧
    (∀ time t, performAccrue e a time s = (.ok (), t) →
      (total = 0 ∧ t.bank = s.bank) ∨ (∃ t', t'.bank = t.bank ∧ Paid e a total (balance s.bank a).delegated s t')) := by
  have hg := hs.good
  have hv := validate_table hg.params
  have hmiss := C52_nothing_missed P s hs a
  have hday : (0 : ℚ) < e.day := by exact_mod_cast he.day
  have p0 : 0 ≤ passed e.now e.day next := div_nonneg (by
    have : (0 : ℤ) ≤ e.now - (next - e.day) := by omega
    exact_mod_cast this) hday.le
  have p1 : passed e.now e.day next ≤ 1 := by
    unfold passed
    rw [div_le_one hday]
    have : (e.now - (next - e.day) : ℤ) ≤ e.day := by omega
    exact_mod_cast this
  obtain ⟨next', q, k1, k2, k3, k4⟩ := C53_query e he.day a s hv (hg.core.nonneg a .delegated) 0 (by rw [hmiss]; rfl)
    (by rw [hmiss]; intro x hx; cases hx) total cur h
  rw [hn] at k1
  injection k1 with k1
  subst k1
  obtain ⟨rfl, rfl⟩ := k4 le_rfl (by norm_num) p0 p1 (hq q k2)
  rw [sub_zero, sub_zero, mul_one]
  have hd0 : (0 : ℚ) ≤ ((balance s.bank a).delegated : ℤ) := by exact_mod_cast hg.core.nonneg a .delegated
  constructor
  · intro u express t ht
    obtain ⟨q', l1, -, l3⟩ := C52_paid_before_revocation P e he a u express s t hs next hn hnow hd ht
    obtain rfl := k2.unique hv (hg.core.nonneg a .delegated) l1
    obtain ⟨si, l4, l5, -⟩ := l3 (hq q k2)
    rcases l4 with ⟨l4, l6⟩ | ⟨l4, t', l6, l7⟩
    · refine ⟨si, l5, Or.inl ⟨le_antisymm l4 ?_, l6⟩⟩
      exact Int.floor_nonneg.2 (mul_nonneg (mul_nonneg k3 p0) hd0)
    · refine ⟨t', fun x => by rw [l5 x, l6], Or.inr ⟨l4, _, l7⟩⟩
  · intro time t ht
    obtain ⟨q', l1, -, l3, l4⟩ := C52_paid_daily P e he a time s t hs ht
    obtain rfl := k2.unique hv (hg.core.nonneg a .delegated) l1
    by_cases hz : q = 0
    · left
      refine ⟨by rw [hz]; simp, l3 hz⟩
    · right
      exact l4 hz (hq q k2)

/-! ### Concrete cases -/

/-- The state after one delegation, and after a day's interest. -/
def exampleDay0 : State := M.tx (msgDelegate (exampleEnvAt 0) 5 100000) exampleStart
def exampleDay1 : State := block (exampleEnvAt 1000) (fun _ s => s) exampleDay0

theorem exampleDay0_reachable : Reachable 100 exampleDay0 :=
  ⟨_, exampleStart_ok, .step (e := exampleEnvAt 0) (.refl _) (exampleEnv_ok _ (by omega) (by omega)) trivial (.delegate _ 5 100000)⟩

theorem exampleDay1_reachable : Reachable 100 exampleDay1 := by
  refine ⟨_, exampleStart_ok, ?_⟩
  refine .step (e := exampleEnvAt 1000) (.step (e := exampleEnvAt 0) (.refl _) ?_ trivial
    (.delegate _ 5 100000)) ?_ trivial (.block _ (fun _ s => s) (fun _ x => .refl x))
  all_goals exact exampleEnv_ok _ (by omega) (by omega)

-- the rate of account 5 with 99700 coins: (24 + 2 + 4) % / 30 = 1 % a day
example : RateOf (exampleEnvAt 1500) exampleDay1 5 (1 / 100) := by
  have h1 : (balance exampleDay1.bank 5).delegated = 99700 := by decide +kernel
  have h2 : exampleDay1.bank.params.dustDelegation = 10 := by decide +kernel
  have h3 : exampleDay1.params.table = [⟨0, [⟨21, 100⟩, ⟨1, 100⟩, ⟨2, 100⟩, ⟨3, 100⟩, ⟨4, 100⟩]⟩,
    ⟨10000, [⟨24, 100⟩, ⟨1, 100⟩, ⟨2, 100⟩, ⟨3, 100⟩, ⟨4, 100⟩]⟩] := by decide +kernel
  refine ⟨true, false, false, true, rfl, rfl, rfl, ?_⟩
  rw [h1, h2, h3]
  refine ⟨⟨10000, [⟨24, 100⟩, ⟨1, 100⟩, ⟨2, 100⟩, ⟨3, 100⟩, ⟨4, 100⟩]⟩, _, _, _, _, _, ⟨by simp, by norm_num, ?_⟩, rfl, ?_⟩
  · intro r' hr' _
    simp only [List.mem_cons, List.not_mem_nil, or_false] at hr'
    rcases hr' with rfl | rfl <;> norm_num
  · norm_num [Frac.toRat]
-- at the middle of the second day the query shows 997 for the day and 498 up to now, and 498 is what a revocation pays
example : accumulation? (exampleEnvAt 1500) exampleDay1 5 = some (some (997, 498)) ∧
    (getRecord exampleDay1 5).nextAccrue = some 2000 := by decide +kernel
example : (msgRevoke (exampleEnvAt 1500) 5 40000 true exampleDay1).1 = .ok () ∧
    (msgDelegate (exampleEnvAt 1500) 5 40000 exampleDay1).1 = .ok () := by decide +kernel
example : passed 1500 1000 2000 = 1 / 2 ∧ ⌊(1 / 100 : ℚ) * (1 / 2) * 99700⌋ = 498 ∧ ⌊(1 / 100 : ℚ) * 99700⌋ = 997 := by
  refine ⟨by norm_num [passed], ?_, ?_⟩
  · rw [Int.floor_eq_iff]; norm_num
  · rw [Int.floor_eq_iff]; norm_num
-- the daily task pays 997 less the fee
example : (performAccrue (exampleEnvAt 1000) 5 1000 exampleDay0).1 = .ok () ∧
    (balance (performAccrue (exampleEnvAt 1000) 5 1000 exampleDay0).2.bank 5).main = (balance exampleDay0.bank 5).main + 997 := by decide +kernel

end Verif.Delegating
