import Verif.Profile.Props
import Verif.Profile.ImTasks

/-! Property C59: what extra storage, messenger storage and traffic cost and what the buyer gets. -/
namespace Verif.Profile
open Verif.Util Verif.Bank
open Verif.Schedule (Pending)

/-! ### The price list -/

/-- The bill for `g` GB at `price` units a GB for the part `r` of a month, in uartr, fractions dropped. -/
def bill (rate : ℚ) (g price : ℕ) (r : ℚ) : ℤ := trunc (rate * (g * price : ℕ) * r)

/-- The part of a month from `now` to `u`. -/
def part (now u month : Int) : ℚ := ((u - now : Int) : ℚ) / month

/-! ### Arithmetic -/

theorem mulInt?_denom {x z : Frac} {y : Int} (h : x.mulInt? y = some z) (hz : z.denom ≠ 0) : x.denom ≠ 0 := by
  intro h0
  exact hz (reduce?_zero h (by simp [h0]))

theorem int64?_denom {x : Frac} {i : Int} (h : x.int64? = some i) : x.denom ≠ 0 := by
  intro h0
  unfold Frac.int64? Frac.bigInt? quo? at h
  rw [h0] at h; simp at h

theorem int64?_trunc {x : Frac} {i : Int} (h : x.int64? = some i) : i = asInt64 (trunc x.toRat) := by
  have hd := int64?_denom h
  unfold Frac.int64? at h
  rw [bigInt?_trunc x hd] at h
  simp only [Option.bind_eq_bind, Option.bind_some, Option.pure_def, Option.some.injEq] at h
  rw [← h, wrap64_eq]

theorem extraFee?_spec {p : Params} {g : Nat} {t : Frac} {f : Int} (h : extraFee? p g t = some f) (ht : t.denom ≠ 0) :
    f = asInt64 (trunc (p.tokenRate.toRat * asInt64 (g * p.storageGbPrice) * t.toRat)) := by
  unfold extraFee? at h
  simp only [Option.bind_eq_bind, Option.bind_eq_some_iff] at h
  obtain ⟨x, h1, y, h2, h3⟩ := h
  have hy := int64?_denom h3
  have hx : x.denom ≠ 0 := by
    intro h0
    exact hy (reduce?_zero h2 (by simp [h0]))
  have hr := mulInt?_denom h1 hx
  obtain ⟨x', x1, x2, x3⟩ := mulInt?_spec p.tokenRate (wrap64 (g * p.storageGbPrice)) hr
  rw [h1] at x1; injection x1 with x1; subst x1
  obtain ⟨y', y1, y2, -, y3⟩ := Frac.mul?_spec x t hx ht
  rw [h2] at y1; injection y1 with y1; subst y1
  rw [int64?_trunc h3, y3, x3, wrap64_eq]

theorem plainFee?_spec {r : Frac} {x : Int} {z : Frac} {f : Int} (h : r.mulInt? x = some z) (h2 : z.int64? = some f) :
    f = asInt64 (trunc (r.toRat * x)) := by
  have hz := int64?_denom h2
  obtain ⟨z', z1, z2, z3⟩ := mulInt?_spec r x (mulInt?_denom h hz)
  rw [h] at z1; injection z1 with z1; subst z1
  rw [int64?_trunc h2, z3]

theorem monthPart?_spec {e : Env} {now u : Int} {t : Frac} (hm : e.month ≠ 0) (h : monthPart? e now u = some t) :
    t.denom ≠ 0 ∧ t.toRat = part now u e.month := by
  obtain ⟨t', t1, t2, -, t3⟩ := Frac.reduce?_spec ⟨u - now, e.month⟩ hm
  unfold monthPart? at h
  rw [t1] at h; injection h with h; subst h
  exact ⟨t2.ne', t3⟩

/-- The product of amount and price fits. -/
theorem asInt64_prod {g price : ℕ} (h : g * price < 2 ^ 63) : asInt64 ((g : ℤ) * price) = ((g * price : ℕ) : ℤ) := by
  rw [← Nat.cast_mul]
  exact asInt64_id ⟨by omega, by exact_mod_cast h⟩

theorem part_nonneg {now u month : Int} (hm : 0 < month) (h : now ≤ u) : 0 ≤ part now u month := by
  refine div_nonneg ?_ ?_
  · have : (0 : ℤ) ≤ u - now := by omega
    exact_mod_cast this
  · exact_mod_cast hm.le

theorem bill_nonneg {rate r : ℚ} {g price : ℕ} (hr : 0 ≤ rate) (hr' : 0 ≤ r) : 0 ≤ bill rate g price r :=
  trunc_nonneg (mul_nonneg (mul_nonneg hr (by positivity)) hr')

/-- What is charged is the bill, if that fits 64 bits. -/
theorem bill_eq {rate r : ℚ} {g price : ℕ} {x : ℤ} (h : x = asInt64 (trunc (rate * asInt64 (g * price) * r)))
    (hg : g * price < 2 ^ 63) (hr : 0 ≤ rate) (hr' : 0 ≤ r) (hb : bill rate g price r < 2 ^ 63) : x = bill rate g price r := by
  rw [asInt64_prod hg] at h
  have hlow := bill_nonneg (g := g) (price := price) hr hr'
  unfold bill at *
  push_cast at *
  rw [h]
  exact asInt64_id ⟨by omega, hb⟩

/-- The payment of a fixed price: fee to the pool, the rest to the company account. -/
theorem paySplit_ok {e : Env} {a : Addr} {x : Int} {s t : State} {u : Unit} (h : paySplit e a x s = (.ok u, t)) :
    ∃ fee, txFeeOf? s.bank.params (Coins.ofMain x) = some fee ∧ 0 ≤ fee ∧ fee ≤ x ∧
      Paid s.bank t.bank a e.company e.bank.splitCollector x fee ∧ Same s t ∧ t.sched = s.sched := by
  have q := paySplit_quiet e a x s
  rw [h] at q
  unfold paySplit at h
  rw [M.panicIf_bind_ok, M.bind_ok_iff] at h
  obtain ⟨-, fee, s1, h1, h⟩ := h
  rw [M.panicIf_bind_ok] at h
  obtain ⟨h2, h⟩ := h
  simp only [decide_eq_false_iff_not, not_lt] at h2
  obtain ⟨b1, hb1, rfl⟩ := onBank_ok h1
  obtain ⟨b2, hb2, rfl⟩ := onBank_ok h
  obtain ⟨m1, -, f1, f2, -⟩ := payTxFee_moved hb1
  obtain ⟨m2, -, -, -⟩ := sendCoins_moved hb2
  refine ⟨fee, f1, f2, by omega, ⟨fun y d => ?_, m2.supply.trans m1.supply⟩, q, rfl⟩
  show (balance b2 y).amt d = _
  rw [m2.bal, m1.bal]
  simp only [Coins.amt_ofMain]
  by_cases hd : d = .main
  · simp only [hd, if_true]
    split <;> split <;> split <;> omega
  · simp only [if_neg hd]
    split <;> split <;> split <;> omega

theorem isActive_iff {p : Profile} {now : Int} : p.isActive now = true ↔ ∃ u, p.activeUntil = some u ∧ now < u := by
  unfold Profile.isActive
  cases p.activeUntil with
  | none => simp
  | some v => simp

theorem isImActive_iff {p : Profile} {now : Int} :
    p.isImActive now = true ↔ p.imLimitExtra ≠ 0 ∧ ∃ u, p.extraImUntil = some u ∧ now < u := by
  unfold Profile.isImActive
  cases p.extraImUntil with
  | none => simp
  | some v => simp

theorem onSched_bank {r : Schedule.Req} {s t : State} {u : Unit} (h : onSched r s = (.ok u, t)) : t.bank = s.bank := by
  unfold onSched at h
  rcases hx : r.exec? s.sched with _ | x
  · rw [hx] at h; simp at h
  · rw [hx] at h; simp only [Prod.mk.injEq] at h; rw [← h.2]

/-- Saving a profile deletes no messenger task. -/
theorem setProfile_pendIm {e : Env} {a : Addr} {p : Profile} {s t : State} {r : Res Unit} (h : setProfile e a p s = (r, t))
    {T : Int} {d : List Nat} (hp : d ∈ ims s.sched T) : d ∈ ims t.sched T := by
  have := (setProfile_calm e a p s).ims T
  rw [h] at this
  rw [this]; exact hp

/-- A task just asked for. -/
theorem schedule_ims {T : Int} {d : List Nat} {s s' : State} {u : Unit} (hs : onSched (.schedule T refreshImHook d) s = (.ok u, s')) :
    d ∈ ims s'.sched T := by
  unfold onSched at hs
  rcases hr : (Schedule.Req.schedule T refreshImHook d).exec? s.sched with _ | r
  · rw [hr] at hs; simp at hs
  · rw [hr] at hs
    simp only [Prod.mk.injEq] at hs
    obtain ⟨-, rfl⟩ := hs
    rw [ims_schedule hr, if_pos ⟨rfl, rfl⟩]
    simp

/-! ### C59 -/

/-- **C59, storage.** Only running subscriptions get more storage.  It is paid for the rest of the subscription, by the part of a
month, at the listed price; the limit, at least the base allowance, rises by the amount bought. -/
theorem C59_storage {e : Env} {a : Addr} {g : Nat} {s t : State} {u : Unit} (hm : 0 < e.month)
    (h : buyStorage e a g s = (.ok u, t)) (hg : g * s.params.storageGbPrice < 2 ^ 63)
    (hb : ∀ o v, s.profiles.get a = some o → o.activeUntil = some v →
      bill s.params.tokenRate.toRat g s.params.storageGbPrice (part s.now v e.month) < 2 ^ 63)
    (hr : 0 ≤ s.params.tokenRate.toRat) :
    ∃ o n v fee, s.profiles.get a = some o ∧ o.activeUntil = some v ∧ s.now < v ∧ t.profiles = s.profiles.set a n ∧
      n = { o with storageLimit := (max (s.params.baseStorageGb * 1073741824) o.storageLimit + g * 1073741824) % 2 ^ 64 } ∧
      g ≠ 0 ∧ 0 < bill s.params.tokenRate.toRat g s.params.storageGbPrice (part s.now v e.month) ∧
      txFeeOf? s.bank.params (Coins.ofMain (bill s.params.tokenRate.toRat g s.params.storageGbPrice (part s.now v e.month))) = some fee ∧
      Paid s.bank t.bank a e.company e.bank.splitCollector
        (bill s.params.tokenRate.toRat g s.params.storageGbPrice (part s.now v e.month)) fee := by
  obtain ⟨o, n, ho, hn, hno⟩ := buyStorage_limit h
  unfold buyStorage at h
  rw [M.errIf_bind_ok, M.get_bind_ok, M.orPanic_bind_ok] at h
  obtain ⟨h0, o', ho', h⟩ := h
  rw [ho] at ho'; injection ho' with ho'; subst ho'
  dsimp only at h
  rw [M.errIf_bind_ok, M.orPanic_bind_ok] at h
  obtain ⟨ha, f, hf, h⟩ := h
  rw [M.orPanic_bind_ok] at h
  obtain ⟨x, hx, h⟩ := h
  rw [M.panicIf_bind_ok, M.bind_ok_iff] at h
  obtain ⟨hpos, _, s1, h1, h⟩ := h
  obtain ⟨v, hv, hlt⟩ := isActive_iff.1 (by simpa using ha)
  rw [hv, Option.getD_some] at hf
  obtain ⟨f1, f2⟩ := monthPart?_spec hm.ne' hf
  have hxe' := bill_eq (f2 ▸ extraFee?_spec hx f1) hg hr (part_nonneg hm hlt.le) (hb o v ho hv)
  obtain ⟨fee, t1, -, -, t4, q, -⟩ := paySplit_ok h1
  obtain ⟨b4, p4, -, -⟩ := setProfile_same_ok (o := o) h (by rw [q.profiles]; exact ho) rfl rfl
  rw [hxe'] at t1 t4 hpos
  have hn2 : t.profiles = s.profiles.set a n := by
    rw [p4, q.profiles]
    rw [p4, KV.get_set_self] at hn
    injection hn with hn
    rw [hn]
  exact ⟨o, n, v, fee, ho, hv, hlt, hn2, hno, by simpa using h0, by simpa using hpos, t1, by rw [b4]; exact t4⟩

/-- **C59, messenger.** Extra messenger storage is bought for a month from now or, if there is some already, added to it for the rest of
its time, at the listed price. -/
theorem C59_messenger {e : Env} {a : Addr} {g : Nat} {s t : State} {u : Unit} (hm : 0 < e.month)
    (h : buyIm e a g s = (.ok u, t)) (hg : g * s.params.storageGbPrice < 2 ^ 63)
    (hb : ∀ o r, s.profiles.get a = some o → (o.isImActive s.now = false ∧ r = 1 ∨ ∃ v, o.extraImUntil = some v ∧ s.now < v ∧ r = part s.now v e.month) →
      bill s.params.tokenRate.toRat g s.params.storageGbPrice r < 2 ^ 63)
    (hr : 0 ≤ s.params.tokenRate.toRat) :
    ∃ o n r fee, s.profiles.get a = some o ∧ t.profiles = s.profiles.set a n ∧ g ≠ 0 ∧
      ((∃ v, o.imLimitExtra ≠ 0 ∧ o.extraImUntil = some v ∧ s.now < v ∧ r = part s.now v e.month ∧
          n = { o with imLimitExtra := (o.imLimitExtra + g) % 2 ^ 64 }) ∨
        ((o.imLimitExtra = 0 ∨ ∀ v, o.extraImUntil = some v → v ≤ s.now) ∧ r = 1 ∧
          n = { o with imLimitExtra := g, extraImUntil := some (s.now + e.month) } ∧
          [a] ∈ ims t.sched (s.now + e.month))) ∧
      0 < bill s.params.tokenRate.toRat g s.params.storageGbPrice r ∧
      txFeeOf? s.bank.params (Coins.ofMain (bill s.params.tokenRate.toRat g s.params.storageGbPrice r)) = some fee ∧
      Paid s.bank t.bank a e.company e.bank.splitCollector (bill s.params.tokenRate.toRat g s.params.storageGbPrice r) fee := by
  unfold buyIm at h
  rw [M.errIf_bind_ok, M.get_bind_ok, M.orPanic_bind_ok] at h
  obtain ⟨h0, o, ho, h⟩ := h
  rw [M.orPanic_bind_ok] at h
  obtain ⟨f, hf, h⟩ := h
  rw [M.orPanic_bind_ok] at h
  obtain ⟨x, hx, h⟩ := h
  rw [M.panicIf_bind_ok, M.bind_ok_iff] at h
  obtain ⟨hpos, _, s1, h1, h⟩ := h
  obtain ⟨fee, t1, -, -, t4, q, hq⟩ := paySplit_ok h1
  have hg0 : g ≠ 0 := by simpa using h0
  have hpos' : 0 < x := by simpa using hpos
  by_cases hact : o.isImActive s.now = true
  · rw [if_pos hact] at hf h
    obtain ⟨hl, v, hv, hlt⟩ := isImActive_iff.1 hact
    rw [hv, Option.getD_some] at hf
    obtain ⟨f1, f2⟩ := monthPart?_spec hm.ne' hf
    have hxe := bill_eq (f2 ▸ extraFee?_spec hx f1) hg hr (part_nonneg hm hlt.le) (hb o _ ho (.inr ⟨v, hv, hlt, rfl⟩))
    have hu : u64 ((o.imLimitExtra : Int) + g) = (o.imLimitExtra + g) % 2 ^ 64 := by unfold u64; omega
    rw [hu] at h
    obtain ⟨b4, p4, -, -⟩ := setProfile_same_ok (o := o) h (by rw [q.profiles]; exact ho) rfl rfl
    rw [hxe] at t1 t4 hpos'
    exact ⟨o, _, _, fee, ho, by rw [p4, q.profiles], hg0, .inl ⟨v, hl, hv, hlt, rfl, rfl⟩, hpos', t1, by rw [b4]; exact t4⟩
  · rw [if_neg hact] at hf h
    injection hf with hf
    subst hf
    have hxe := extraFee?_spec hx (by decide)
    have h11 : (⟨1, 1⟩ : Frac).toRat = 1 := by simp [Frac.toRat]
    rw [h11] at hxe
    have hxe := bill_eq hxe hg hr (by norm_num) (hb o _ ho (.inl ⟨by simpa using hact, rfl⟩))
    rw [hxe] at t1 t4 hpos'
    rw [M.bind_ok_iff] at h
    obtain ⟨_, s2, h2, h⟩ := h
    have q2 := schedule_quiet (s.now + e.month) refreshImHook [a] s1
    have h2' : onSched (.schedule (s.now + e.month) refreshImHook [a]) s1 = (.ok _, s2) := h2
    rw [h2'] at q2
    have b2 : s2.bank = s1.bank := onSched_bank h2'
    obtain ⟨b4, p4, -, -⟩ := setProfile_same_ok (o := o) h (by rw [q2.profiles, q.profiles]; exact ho) rfl rfl
    refine ⟨o, _, _, fee, ho, by rw [p4, q2.profiles, q.profiles], hg0, .inr ⟨?_, rfl, rfl, ?_⟩, hpos', t1, by rw [b4, b2]; exact t4⟩
    · by_contra hc
      rw [not_or] at hc
      obtain ⟨c1, c2⟩ := hc
      push Not at c2
      exact hact (isImActive_iff.2 ⟨c1, by obtain ⟨v, c2, c3⟩ := c2; exact ⟨v, c2, c3⟩⟩)
    · exact setProfile_pendIm h (schedule_ims h2')

/-- **C59, traffic.** Only running subscriptions get more traffic; the limit rises by the amount bought, at the listed price. -/
theorem C59_traffic {e : Env} {a : Addr} {g : Nat} {s t : State} {u : Unit}
    (h : buyVpn e a g s = (.ok u, t)) (hg : g * s.params.vpnGbPrice < 2 ^ 63)
    (hb : bill s.params.tokenRate.toRat g s.params.vpnGbPrice 1 < 2 ^ 63) (hr : 0 ≤ s.params.tokenRate.toRat) :
    ∃ o n v fee, s.profiles.get a = some o ∧ o.activeUntil = some v ∧ s.now < v ∧ t.profiles = s.profiles.set a n ∧
      n = { o with vpnLimit := (o.vpnLimit + g * 1073741824) % 2 ^ 64 } ∧ g ≠ 0 ∧
      txFeeOf? s.bank.params (Coins.ofMain (bill s.params.tokenRate.toRat g s.params.vpnGbPrice 1)) = some fee ∧
      Paid s.bank t.bank a e.company e.bank.splitCollector (bill s.params.tokenRate.toRat g s.params.vpnGbPrice 1) fee := by
  unfold buyVpn at h
  rw [M.errIf_bind_ok, M.get_bind_ok, M.orPanic_bind_ok] at h
  obtain ⟨h0, o, ho, h⟩ := h
  rw [M.errIf_bind_ok, M.orPanic_bind_ok] at h
  obtain ⟨ha, f, hf, h⟩ := h
  rw [M.orPanic_bind_ok] at h
  obtain ⟨x, hx, h⟩ := h
  rw [M.bind_ok_iff] at h
  obtain ⟨_, s1, h1, h⟩ := h
  obtain ⟨v, hv, hlt⟩ := isActive_iff.1 (by simpa using ha)
  obtain ⟨fee, t1, -, -, t4, q, -⟩ := paySplit_ok h1
  have hxe : x = bill s.params.tokenRate.toRat g s.params.vpnGbPrice 1 := by
    refine bill_eq ?_ hg hr (by norm_num) hb
    rw [plainFee?_spec hf hx, wrap64_eq, mul_one]
  have hu : u64 ((o.vpnLimit : Int) + g * gb) = (o.vpnLimit + g * 1073741824) % 2 ^ 64 := by unfold u64; rw [gb_eq]; omega
  rw [hu] at h
  obtain ⟨b4, p4, -, -⟩ := setProfile_same_ok (o := o) h (by rw [q.profiles]; exact ho) rfl rfl
  rw [hxe] at t1 t4
  exact ⟨o, _, v, fee, ho, hv, hlt, by rw [p4, q.profiles], rfl, by simpa using h0, t1, by rw [b4]; exact t4⟩

/-- The messenger storage on record paid for one more month. -/
theorem prolong_ok {e : Env} {a : Addr} {o n : Profile} {s t : State} (h : prolong e a o s = (.ok n, t))
    (hg : o.imLimitExtra * s.params.storageGbPrice < 2 ^ 63) (hl : o.imLimitExtra < 2 ^ 63)
    (hb : bill s.params.tokenRate.toRat o.imLimitExtra s.params.storageGbPrice 1 < 2 ^ 63) (hr : 0 ≤ s.params.tokenRate.toRat) :
    ∃ v fee, o.imLimitExtra ≠ 0 ∧ o.extraImUntil = some v ∧ n = { o with extraImUntil := some (v + e.month) } ∧
      0 < bill s.params.tokenRate.toRat o.imLimitExtra s.params.storageGbPrice 1 ∧
      txFeeOf? s.bank.params (Coins.ofMain (bill s.params.tokenRate.toRat o.imLimitExtra s.params.storageGbPrice 1)) = some fee ∧
      Paid s.bank t.bank a e.company e.bank.splitCollector (bill s.params.tokenRate.toRat o.imLimitExtra s.params.storageGbPrice 1) fee ∧
      [a] ∈ ims t.sched (v + e.month) := by
  unfold prolong at h
  rw [M.errIf_bind_ok, M.get_bind_ok, M.orPanic_bind_ok] at h
  obtain ⟨h0, f, hf, h⟩ := h
  rw [M.orPanic_bind_ok] at h
  obtain ⟨x, hx, h⟩ := h
  rw [M.panicIf_bind_ok, M.bind_ok_iff] at h
  obtain ⟨hpos, _, s1, h1, h⟩ := h
  obtain ⟨fee, t1, -, -, t4, q, -⟩ := paySplit_ok h1
  simp only [Bool.or_eq_false_iff, decide_eq_false_iff_not, Option.isNone_eq_false_iff] at h0
  obtain ⟨h01, h02⟩ := h0
  obtain ⟨v, hv⟩ := Option.isSome_iff_exists.1 h02
  rw [hv, Option.getD_some] at h
  rw [M.bind_ok_iff] at h
  obtain ⟨_, s2, h2, h⟩ := h
  rw [M.bind_ok_iff] at h
  obtain ⟨_, s3, h3, h⟩ := h
  obtain ⟨rfl, rfl⟩ := M.pure_ok.1 h
  have hxe : x = bill s.params.tokenRate.toRat o.imLimitExtra s.params.storageGbPrice 1 := by
    refine bill_eq ?_ hg hr (by norm_num) hb
    rw [plainFee?_spec hf hx, wrap64_eq, wrap64_eq, mul_one, asInt64_id (x := (o.imLimitExtra : ℤ)) ⟨by omega, by exact_mod_cast hl⟩]
  have b2 := onSched_bank h2
  have h3' : onSched (.schedule (v + e.month) refreshImHook [a]) s2 = (.ok _, s3) := h3
  have b3 := onSched_bank h3'
  rw [hxe] at t1 t4
  have hpos' : 0 < x := by simpa using hpos
  rw [hxe] at hpos'
  exact ⟨v, fee, h01, hv, rfl, hpos', t1, by rw [b3, b2]; exact t4, schedule_ims h3'⟩

/-- **C59, prolongation.** The owner may pay for one more month of the messenger storage on record, at the listed price. -/
theorem C59_prolong {e : Env} {a : Addr} {s t : State} {u : Unit} (h : prolongIm e a s = (.ok u, t))
    (hr : 0 ≤ s.params.tokenRate.toRat)
    (hb : ∀ o, s.profiles.get a = some o → o.imLimitExtra * s.params.storageGbPrice < 2 ^ 63 ∧ o.imLimitExtra < 2 ^ 63 ∧
      bill s.params.tokenRate.toRat o.imLimitExtra s.params.storageGbPrice 1 < 2 ^ 63) :
    ∃ o v fee, s.profiles.get a = some o ∧ o.imLimitExtra ≠ 0 ∧ o.extraImUntil = some v ∧
      t.profiles = s.profiles.set a { o with extraImUntil := some (v + e.month) } ∧
      0 < bill s.params.tokenRate.toRat o.imLimitExtra s.params.storageGbPrice 1 ∧
      txFeeOf? s.bank.params (Coins.ofMain (bill s.params.tokenRate.toRat o.imLimitExtra s.params.storageGbPrice 1)) = some fee ∧
      Paid s.bank t.bank a e.company e.bank.splitCollector (bill s.params.tokenRate.toRat o.imLimitExtra s.params.storageGbPrice 1) fee ∧
      [a] ∈ ims t.sched (v + e.month) := by
  unfold prolongIm at h
  rw [M.get_bind_ok, M.orPanic_bind_ok] at h
  obtain ⟨o, ho, h⟩ := h
  rw [M.bind_ok_iff] at h
  obtain ⟨n, s1, h1, h⟩ := h
  obtain ⟨hb1, hb2, hb3⟩ := hb o ho
  obtain ⟨v, fee, k1, k2, rfl, k3, k4, k5, x1⟩ := prolong_ok h1 hb1 hb2 hb3 hr
  have q := prolong_quiet e a o s
  rw [h1] at q
  obtain ⟨b4, p4, -, -⟩ := setProfile_same_ok (o := o) h (by rw [q.profiles]; exact ho) rfl rfl
  exact ⟨o, v, fee, ho, k1, k2, by rw [p4, q.profiles], k3, k4, by rw [b4]; exact k5, setProfile_pendIm h x1⟩

/-- The messenger tasks of one address at one time after its task there was deleted. -/
theorem delete_ims {T : Int} {a : Addr} {s s' : State} {u : Unit} (hs : onSched (.delete T refreshImHook [a]) s = (.ok u, s')) (T' : Int) :
    ims s'.sched T' = if T' = T then (ims s.sched T').filter (fun d => d ≠ [a]) else ims s.sched T' := by
  unfold onSched at hs
  rcases hr : (Schedule.Req.delete T refreshImHook [a]).exec? s.sched with _ | r
  · rw [hr] at hs; simp at hs
  · rw [hr] at hs
    simp only [Prod.mk.injEq] at hs
    obtain ⟨-, rfl⟩ := hs
    show ims r T' = _
    rw [ims_delete hr]
    split
    · next hT =>
      subst hT
      unfold ims
      rw [List.filter_map, List.filter_filter, List.filter_filter]
      congr 1
      apply List.filter_congr
      intro x _
      by_cases h1 : x.handler = refreshImHook <;> by_cases h2 : x.data = [a] <;> simp [h1, h2]
    · rfl

/-- **C59, giving up.** Only less than what one has can be kept; keeping nothing ends the storage at once, and its task is deleted.
No money moves. -/
theorem C59_give_up {e : Env} {a : Addr} {g : Nat} {s t : State} {u : Unit} (h : giveImUp e a g s = (.ok u, t)) :
    t.bank = s.bank ∧ ∃ o v, s.profiles.get a = some o ∧ o.extraImUntil = some v ∧ s.now < v ∧ g < o.imLimitExtra ∧
      (g ≠ 0 → t.profiles = s.profiles.set a { o with imLimitExtra := g } ∧ ∀ T, ims t.sched T = ims s.sched T) ∧
      (g = 0 → t.profiles = s.profiles.set a { o with imLimitExtra := 0, extraImUntil := none } ∧ [a] ∉ ims t.sched v ∧
        (∀ T, T ≠ v → ims t.sched T = ims s.sched T) ∧ ∀ b, b ≠ a → ([b] ∈ ims t.sched v ↔ [b] ∈ ims s.sched v)) := by
  unfold giveImUp at h
  rw [M.get_bind_ok, M.orPanic_bind_ok] at h
  obtain ⟨o, ho, h⟩ := h
  rw [M.errIf_bind_ok] at h
  obtain ⟨h0, h⟩ := h
  simp only [decide_eq_false_iff_not, not_le] at h0
  have hact : o.isImActive s.now = true := by
    by_contra hc
    rw [if_neg hc] at h0; omega
  rw [if_pos hact] at h0
  obtain ⟨-, v, hv, hlt⟩ := isImActive_iff.1 hact
  by_cases hg : g = 0
  · rw [if_pos hg, M.bind_ok_iff] at h
    obtain ⟨_, s1, h1, h⟩ := h
    rw [hv, Option.getD_some] at h1
    have q := deleteIm_quiet v [a] s
    rw [h1] at q
    obtain ⟨b4, p4, -, -⟩ := setProfile_same_ok (o := o) h (by rw [q.profiles]; exact ho) rfl rfl
    have hims := setProfile_calm e a { o with imLimitExtra := 0, extraImUntil := none } s1
    rw [h] at hims
    refine ⟨b4.trans (onSched_bank h1), o, v, ho, hv, hlt, h0, fun hc => absurd hg hc, fun _ => ⟨by rw [p4, q.profiles], ?_, ?_, ?_⟩⟩
    · rw [hims.ims, delete_ims h1, if_pos rfl]; simp
    · intro T hT
      rw [hims.ims, delete_ims h1, if_neg hT]
    · intro b hb
      rw [hims.ims, delete_ims h1, if_pos rfl]; simp [hb]
  · rw [if_neg hg] at h
    obtain ⟨b4, p4, -, -⟩ := setProfile_same_ok (o := o) h ho rfl rfl
    have hims := setProfile_calm e a { o with imLimitExtra := g } s
    rw [h] at hims
    exact ⟨b4, o, v, ho, hv, hlt, h0, fun _ => ⟨p4, hims.ims⟩, fun hc => absurd hc hg⟩

/-- **C59, end.** The task at the end of extra messenger storage pays for another month if its owner asked for that and can, and ends
the storage otherwise. -/
theorem C59_end {e : Env} {a : Addr} {s t : State} {u : Unit} (h : monthlyIm e a s = (.ok u, t))
    (hr : 0 ≤ s.params.tokenRate.toRat)
    (hb : ∀ o, s.profiles.get a = some o → o.imLimitExtra * s.params.storageGbPrice < 2 ^ 63 ∧ o.imLimitExtra < 2 ^ 63 ∧
      bill s.params.tokenRate.toRat o.imLimitExtra s.params.storageGbPrice 1 < 2 ^ 63) :
    ∃ o, s.profiles.get a = some o ∧
      ((o.autoPayImExtra = true ∧ ∃ v fee, o.imLimitExtra ≠ 0 ∧ o.extraImUntil = some v ∧
          t.profiles = s.profiles.set a { o with extraImUntil := some (v + e.month) } ∧
          txFeeOf? s.bank.params (Coins.ofMain (bill s.params.tokenRate.toRat o.imLimitExtra s.params.storageGbPrice 1)) = some fee ∧
          Paid s.bank t.bank a e.company e.bank.splitCollector (bill s.params.tokenRate.toRat o.imLimitExtra s.params.storageGbPrice 1) fee ∧
          [a] ∈ ims t.sched (v + e.month)) ∨
        ((o.autoPayImExtra = false ∧ t.bank = s.bank ∨ o.autoPayImExtra = true ∧ (prolongIm e a s).1 ≠ .ok ()) ∧
          t.profiles = s.profiles.set a { o with imLimitExtra := 0, extraImUntil := none, autoPayImExtra := false })) := by
  unfold monthlyIm at h
  rw [M.get_bind_ok, M.orPanic_bind_ok] at h
  obtain ⟨o, ho, h⟩ := h
  rw [M.bind_ok_iff] at h
  obtain ⟨n, s1, h1, h⟩ := h
  refine ⟨o, ho, ?_⟩
  unfold onErr at h1
  by_cases ha : o.autoPayImExtra = true
  rotate_left
  · rw [if_neg ha] at h1
    obtain ⟨rfl, rfl⟩ := M.pure_ok.1 h1
    obtain ⟨b4, p4, -, -⟩ := setProfile_same_ok (o := o) h ho rfl rfl
    exact .inr ⟨.inl ⟨by simpa using ha, b4⟩, p4⟩
  · rw [if_pos ha] at h1
    have q := prolong_quiet e a o s
    rcases hp : prolong e a o s with ⟨r, s2⟩
    rw [hp] at h1 q
    cases r with
    | ok m =>
      simp only [Prod.mk.injEq, Res.ok.injEq] at h1
      obtain ⟨rfl, rfl⟩ := h1
      obtain ⟨hb1, hb2, hb3⟩ := hb o ho
      obtain ⟨v, fee, k1, k2, rfl, k3, k4, k5, x1⟩ := prolong_ok hp hb1 hb2 hb3 hr
      obtain ⟨b4, p4, -, -⟩ := setProfile_same_ok (o := o) h (by rw [q.profiles]; exact ho) rfl rfl
      exact .inl ⟨ha, v, fee, k1, k2, by rw [p4, q.profiles], k4, by rw [b4]; exact k5, setProfile_pendIm h x1⟩
    | err =>
      obtain ⟨rfl, rfl⟩ := M.pure_ok.1 h1
      obtain ⟨b4, p4, -, -⟩ := setProfile_same_ok (o := o) h (by rw [q.profiles]; exact ho) rfl rfl
      refine .inr ⟨.inr ⟨ha, ?_⟩, by rw [p4, q.profiles]⟩
      unfold prolongIm
      rw [M.bind_ok (M.get_apply s), ho, M.bind_ok (M.orPanic_some o s), M.bind_apply, hp]
      simp
    | panic => simp at h1

/-! ### Cases -/

/-- An account with 5 GB of extra messenger storage, to be paid automatically. -/
def messenger : List Op := [.createAccount 5 7 5 none, .payTariff 7 0, .buyIm 7 5, .updateProfile 7 [.autoPayIm true]]

/-- And with 4 ARTR left, one less than the price. -/
def almostBroke : List Op := messenger ++
  [.foreign ⟨fun b => { b with balances := b.balances.set 7 ⟨4000000, 0, 0, 0⟩ }, [], []⟩]

/-- Half a month later. -/
def halfMonth : Op := .block (fun _ => exampleEnv) (fun _ => exampleForeign) (1000 + exampleMonth / 2)

/-- The block at the end of the month. -/
def monthEnd : Op := .block (fun _ => exampleEnv) (fun _ => exampleForeign) (1000 + exampleMonth)

-- the prices: 5 GB for a month, 2 GB for half a month, 2 GB of traffic
example : bill 100000 5 10 1 = 5000000 ∧ bill 100000 2 10 (part (1000 + exampleMonth / 2) (1000 + exampleMonth) exampleMonth) = 1000000 ∧
    bill 100000 2 10 1 = 2000000 := by decide +kernel

-- what the account has left after each purchase half a month later: 2 GB of messenger storage, of storage, of traffic; prolongation
example : (balance (Op.runAll exampleEnv messenger exampleState).bank 7).main = 1000000000000 - 199000000 - 5000000 ∧
    (balance (Op.runAll exampleEnv (messenger ++ [halfMonth, .buyIm 7 2]) exampleState).bank 7).main = 999796000000 - 1000000 ∧
    (balance (Op.runAll exampleEnv (messenger ++ [halfMonth, .buyStorage 7 2]) exampleState).bank 7).main = 999796000000 - 1000000 ∧
    (balance (Op.runAll exampleEnv (messenger ++ [halfMonth, .buyVpn 7 2]) exampleState).bank 7).main = 999796000000 - 2000000 ∧
    (balance (Op.runAll exampleEnv (messenger ++ [halfMonth, .prolongIm 7]) exampleState).bank 7).main = 999796000000 - 5000000 := by
  decide +kernel

-- all these are accepted
example : (buyIm exampleEnv 7 2 (Op.runAll exampleEnv (messenger ++ [halfMonth]) exampleState)).1 = .ok () ∧
    (buyStorage exampleEnv 7 2 (Op.runAll exampleEnv (messenger ++ [halfMonth]) exampleState)).1 = .ok () ∧
    (buyVpn exampleEnv 7 2 (Op.runAll exampleEnv (messenger ++ [halfMonth]) exampleState)).1 = .ok () ∧
    (prolongIm exampleEnv 7 (Op.runAll exampleEnv (messenger ++ [halfMonth]) exampleState)).1 = .ok () ∧
    (giveImUp exampleEnv 7 2 (Op.runAll exampleEnv (messenger ++ [halfMonth]) exampleState)).1 = .ok () ∧
    (giveImUp exampleEnv 7 0 (Op.runAll exampleEnv (messenger ++ [halfMonth]) exampleState)).1 = .ok () ∧
    (monthlyIm exampleEnv 7 (Op.runAll exampleEnv (messenger ++ [halfMonth]) exampleState)).1 = .ok () := by
  decide +kernel

/-- **A payment that fails in part**: at the end of the month the account cannot pay for another month.  The storage ends, but the
transaction fee of the failed payment is gone. -/
theorem C59_fee_for_nothing : ∃ s, Reachable ascii s ∧ ∃ t, Reachable ascii t ∧ t = monthEnd.run exampleEnv s ∧
    (s.profiles.get 7).map Profile.im = some (5, some (1000 + exampleMonth), true) ∧
    (t.profiles.get 7).map Profile.im = some (0, none, false) ∧
    (balance s.bank 7).main = 4000000 ∧ (balance t.bank 7).main = 4000000 - 15000 := by
  refine ⟨_, runAll_reachable almostBroke (.start exampleStart), _, .step exampleEnv rfl monthEnd (runAll_reachable almostBroke (.start exampleStart)), rfl, ?_, ?_, ?_, ?_⟩ <;>
    decide +kernel

end Verif.Profile
