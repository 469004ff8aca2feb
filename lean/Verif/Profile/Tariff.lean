import Verif.Profile.Steps
import Verif.Util.FeeLemmas
import Mathlib.Data.Rat.Floor
import Mathlib.Tactic.Positivity
import Mathlib.Tactic.NormNum

/-! Properties C41, C43, C44 and C47: what subscriptions cost and what they do to the limits. -/
namespace Verif.Profile
open Verif.Util Verif.Bank

/-! A gigabyte is 2^30 = 1073741824 bytes. -/


/-! ### The price list -/

/-- A fraction without its fractional part. -/
def trunc (q : ℚ) : ℤ := if 0 ≤ q then ⌊q⌋ else ⌈q⌉

/-- The value of an integer in 64-bit two's complement. -/
def asInt64 (x : ℤ) : ℤ := (x + 2 ^ 63) % 2 ^ 64 - 2 ^ 63

/-- The price of `x` byte-prices: a rate, a number of bytes times a price by the GB. -/
def byGb (rate : ℚ) (x : ℤ) : ℚ := rate * x / 1073741824

/-- The price of storage of a subscription, in uartr: what exceeds the base allowance, by the GB; if the limit of a running
subscription is changed, also the difference for the rest of the running month, `rest` of a month, but nothing is paid back.
`i` is the integer arithmetic used: exact or 64-bit. -/
def storageQuote (i : ℤ → ℤ) (rate : ℚ) (gbPrice baseGb bytes limit : ℕ) : Option ℚ → ℚ
  | none => byGb rate (i ((i bytes - i (baseGb * 1073741824)) * gbPrice))
  | some r =>
    if bytes = limit then byGb rate (i ((i bytes - i (baseGb * 1073741824)) * gbPrice))
    else max 0 (byGb rate (i ((i bytes - i (baseGb * 1073741824)) * gbPrice)) + byGb rate (i (i bytes - i limit)) * gbPrice * r)

/-- The price of a month: subscription and storage. -/
def quote (i : ℤ → ℤ) (p : Params) (bytes limit : ℕ) (rest : Option ℚ) : ℤ :=
  trunc (p.tokenRate.toRat * p.subscriptionPrice) +
    trunc (storageQuote i p.tokenRate.toRat p.storageGbPrice p.baseStorageGb bytes limit rest)

/-- The part of a month left of a running subscription. -/
def restOf (o : Profile) (now month : Int) : Option ℚ :=
  match o.activeUntil with
  | none => none
  | some u => if now < u then some (((u - now : Int) : ℚ) / month) else none

/-- The storage an account pays for: what it asks for or, if it asks for nothing, what it has, or the base allowance. -/
def storageAsked (p : Params) (o : Profile) (g : ℕ) : ℕ :=
  if g ≠ 0 then g * 1073741824 else if o.storageLimit = 0 then p.baseStorageGb * 1073741824 else o.storageLimit

/-! ### Arithmetic -/

theorem wrap64_eq (x : ℤ) : wrap64 x = asInt64 x := by
  unfold wrap64 asInt64 Int.bmod
  dsimp only
  split <;> omega

theorem asInt64_id {x : ℤ} (h : -(2 ^ 63) ≤ x ∧ x < 2 ^ 63) : asInt64 x = x := by
  unfold asInt64; omega

theorem gb_eq : gb = 1073741824 := rfl

theorem bigInt?_trunc (x : Frac) (h : x.denom ≠ 0) : x.bigInt? = some (trunc x.toRat) := by
  unfold Frac.bigInt? trunc
  rw [quo?_ne h]
  congr 1
  have key : ∀ n d : Int, 0 < d → n.tdiv d = if (0 : ℚ) ≤ (n : ℚ) / d then ⌊(n : ℚ) / d⌋ else ⌈(n : ℚ) / d⌉ := by
    intro n d hd
    have hdq : (0 : ℚ) < d := by exact_mod_cast hd
    by_cases hn : 0 ≤ n
    · have hq : (0 : ℚ) ≤ (n : ℚ) / d := div_nonneg (by exact_mod_cast hn) hdq.le
      rw [if_pos hq]
      have := Frac.bigInt?_floor ⟨n, d⟩ hd hn
      unfold Frac.bigInt? at this
      rw [quo?_ne hd.ne'] at this
      injection this
    · have hq : ¬ (0 : ℚ) ≤ (n : ℚ) / d := by
        rw [not_le]; exact div_neg_of_neg_of_pos (by exact_mod_cast (not_le.1 hn)) hdq
      rw [if_neg hq]
      have := Frac.bigInt?_floor ⟨-n, d⟩ hd (by show 0 ≤ -n; omega)
      unfold Frac.bigInt? at this
      rw [quo?_ne hd.ne'] at this
      injection this with this
      have e1 : n.tdiv d = - ((-n).tdiv d) := by rw [Int.neg_tdiv]; omega
      rw [e1, this, ← Int.ceil_neg]
      congr 1
      unfold Frac.toRat; push_cast; ring
  rcases lt_or_gt_of_ne h with hd | hd
  · have := key (-x.num) (-x.denom) (by omega)
    rw [Int.neg_tdiv, Int.tdiv_neg, neg_neg] at this
    rw [this]
    unfold Frac.toRat
    push_cast
    rw [neg_div_neg_eq]
  · exact key x.num x.denom hd

theorem reduce?_zero {x z : Frac} (h : x.reduce? = some z) (hx : x.denom = 0) : z.denom = 0 := by
  unfold Frac.reduce? at h
  rw [hx] at h
  simp only [lt_irrefl, if_false] at h
  unfold quo? at h
  split at h
  · cases h
  · simp only [Option.bind_eq_bind, Option.bind_some, Option.pure_def, Option.some.injEq] at h; rw [← h]; simp [hx]

theorem toRat_ofInt (x : Int) : (Frac.ofInt x).toRat = x := by simp [Frac.toRat, Frac.ofInt]

theorem mulInt?_spec (x : Frac) (y : Int) (hx : x.denom ≠ 0) : ∃ z, x.mulInt? y = some z ∧ 0 < z.denom ∧ z.toRat = x.toRat * y := by
  obtain ⟨z, h1, h2, -, h4⟩ := Frac.mul?_spec x (Frac.ofInt y) hx (by simp [Frac.ofInt])
  exact ⟨z, h1, h2, by rw [h4, toRat_ofInt]⟩

theorem divInt?_spec (x : Frac) (y : Int) (hx : x.denom ≠ 0) (hy : y ≠ 0) : ∃ z, x.divInt? y = some z ∧ 0 < z.denom ∧ z.toRat = x.toRat / y := by
  obtain ⟨z, h1, h2, -, h4⟩ := Frac.div?_spec x (Frac.ofInt y) hx (by simp [Frac.ofInt]) (by simpa [Frac.ofInt] using hy)
  exact ⟨z, h1, h2, by rw [h4, toRat_ofInt]⟩

theorem tariff?_rate {p : Params} {t : Int} (h : tariff? p = some t) : p.tokenRate.denom ≠ 0 ∧ t = trunc (p.tokenRate.toRat * p.subscriptionPrice) := by
  unfold tariff? at h
  simp only [Option.bind_eq_bind, Option.bind_eq_some_iff] at h
  obtain ⟨z, h1, h2⟩ := h
  have hd : p.tokenRate.denom ≠ 0 := by
    intro h0
    have : z.denom = 0 := reduce?_zero h1 (by simp [h0])
    unfold Frac.bigInt? quo? at h2
    rw [this] at h2; simp at h2
  refine ⟨hd, ?_⟩
  obtain ⟨w, w1, w2, w3⟩ := mulInt?_spec p.tokenRate p.subscriptionPrice hd
  rw [h1] at w1
  injection w1 with w1; subst w1
  rw [bigInt?_trunc z w2.ne', w3] at h2
  injection h2 with h2
  rw [← h2]; norm_cast

theorem baseStorageFee?_spec (p : Params) (b : Nat) (h : p.tokenRate.denom ≠ 0) :
    ∃ f, baseStorageFee? p b = some f ∧ f.denom ≠ 0 ∧
      f.toRat = byGb p.tokenRate.toRat (asInt64 ((asInt64 b - asInt64 (p.baseStorageGb * 1073741824)) * p.storageGbPrice)) := by
  obtain ⟨x, x1, x2, x3⟩ := mulInt?_spec p.tokenRate (wrap64 ((wrap64 b - wrap64 (p.baseStorageGb * gb)) * p.storageGbPrice)) h
  obtain ⟨y, y1, y2, y3⟩ := divInt?_spec x gb x2.ne' (by simp [gb])
  obtain ⟨z, z1, z2, -, z3⟩ := Frac.reduce?_spec y y2.ne'
  refine ⟨z, ?_, z2.ne', ?_⟩
  · unfold baseStorageFee?
    simp only [x1, y1, z1, Option.bind_eq_bind, Option.bind_some]
  · rw [z3, y3, x3]
    simp only [wrap64_eq, gb_eq, byGb]
    norm_num

theorem changeFee?_spec (e : Env) (p : Params) (now u : Int) (b l : Nat) (h : p.tokenRate.denom ≠ 0) (hm : e.month ≠ 0) :
    ∃ f, changeFee? e p now u b l = some f ∧ f.denom ≠ 0 ∧
      f.toRat = byGb p.tokenRate.toRat (asInt64 (asInt64 b - asInt64 l)) * p.storageGbPrice * (((u - now : Int) : ℚ) / e.month) := by
  obtain ⟨t, t1, t2, -, t3⟩ := Frac.reduce?_spec ⟨u - now, e.month⟩ hm
  obtain ⟨x, x1, x2, x3⟩ := mulInt?_spec p.tokenRate (wrap64 (wrap64 b - wrap64 l)) h
  obtain ⟨y, y1, y2, y3⟩ := divInt?_spec x gb x2.ne' (by simp [gb])
  obtain ⟨z, z1, z2, -, z3⟩ := Frac.reduce?_spec y y2.ne'
  obtain ⟨w, w1, w2, w3⟩ := mulInt?_spec z p.storageGbPrice z2.ne'
  obtain ⟨v, v1, v2, -, v3⟩ := Frac.mul?_spec w t w2.ne' t2.ne'
  obtain ⟨r, r1, r2, -, r3⟩ := Frac.reduce?_spec v v2.ne'
  refine ⟨r, ?_, r2.ne', ?_⟩
  · unfold changeFee? monthPart?
    simp only [t1, x1, y1, z1, w1, v1, r1, Option.bind_eq_bind, Option.bind_some]
  · rw [r3, v3, w3, z3, y3, x3, t3]
    simp only [wrap64_eq, gb_eq, Frac.toRat, byGb]
    norm_num

theorem storageFee?_spec (e : Env) (p : Params) (now : Int) (run : Option Int) (b l : Nat) (h : p.tokenRate.denom ≠ 0) (hm : e.month ≠ 0) :
    ∃ f, storageFee? e p now run b l = some f ∧ f.denom ≠ 0 ∧
      f.toRat = storageQuote asInt64 p.tokenRate.toRat p.storageGbPrice p.baseStorageGb b l (run.map fun u => ((u - now : Int) : ℚ) / e.month) := by
  obtain ⟨f, f1, f2, f3⟩ := baseStorageFee?_spec p b h
  unfold storageFee?
  simp only [f1, Option.bind_eq_bind, Option.bind_some]
  cases run with
  | none => exact ⟨f, rfl, f2, f3⟩
  | some u =>
    simp only [Option.map_some, storageQuote]
    by_cases hb : b = l
    · rw [if_neg (by simpa using hb), if_pos hb]
      exact ⟨f, rfl, f2, f3⟩
    · rw [if_pos hb, if_neg hb]
      obtain ⟨c, c1, c2, c3⟩ := changeFee?_spec e p now u b l h hm
      obtain ⟨g, g1, g2, -, -, -, g3⟩ := Frac.add?_spec f c f2 c2
      simp only [c1, g1, Option.bind_some]
      rw [f3, c3] at g3
      refine ⟨_, rfl, ?_, ?_⟩
      · split
        · simp
        · exact g2.ne'
      · rw [← g3]
        by_cases hn : g.toRat < 0
        · rw [if_pos ((Frac.isNegative_iff g g2.ne').2 hn), max_eq_left hn.le]
          simp [Frac.toRat]
        · rw [if_neg (fun hh => hn ((Frac.isNegative_iff g g2.ne').1 hh)), max_eq_right (not_lt.1 hn)]

theorem restOf_eq (o : Profile) (now m : Int) : (running o now).map (fun u => ((u - now : Int) : ℚ) / m) = restOf o now m := by
  unfold running restOf Profile.isActive
  cases o.activeUntil with
  | none => rfl
  | some u =>
    by_cases h : now < u
    · simp [h]
    · simp [h]

theorem tariffTotal?_spec {e : Env} {s : State} {o : Profile} {b : Nat} {q : Int × Int} (hm : e.month ≠ 0)
    (h : tariffTotal? e s o b = some q) :
    q.1 = quote asInt64 s.params b o.storageLimit (restOf o s.now e.month) ∧
    calculateFee? (trunc (s.params.tokenRate.toRat * s.params.subscriptionPrice)) s.bank.params.fee.rate s.bank.params.fee.maxFee
      s.bank.params.fee.forProposer s.bank.params.fee.forCompany = some q.2 := by
  unfold tariffTotal? at h
  simp only [Option.bind_eq_bind, Option.bind_eq_some_iff] at h
  obtain ⟨t, h1, fee, h2, f, h3, i, h4, h5⟩ := h
  obtain ⟨hd, ht⟩ := tariff?_rate h1
  obtain ⟨f', f1, f2, f3⟩ := storageFee?_spec e s.params s.now (running o s.now) b o.storageLimit hd hm
  rw [f1] at h3; injection h3 with h3; subst h3
  rw [bigInt?_trunc f' f2, f3, restOf_eq] at h4
  injection h4 with h4
  simp only [Option.pure_def, Option.some.injEq] at h5
  subst h5
  refine ⟨?_, by rw [← ht]; exact h2⟩
  show t + i = _
  rw [← h4, ht]; rfl

/-! ### Saving a profile with an unchanged nickname -/

theorem setProfile_same_ok {e : Env} {a : Addr} {o p : Profile} {s t : State} {u : Unit} (h : setProfile e a p s = (.ok u, t))
    (ho : s.profiles.get a = some o) (hn : p.nickname = o.nickname) (hc : p.cardNumber = o.cardNumber) :
    t.bank = s.bank ∧ t.profiles = s.profiles.set a p ∧ t.params = s.params ∧ t.now = s.now := by
  unfold setProfile at h
  rw [M.get_bind_ok, M.errIf_bind_ok] at h
  obtain ⟨h0, h⟩ := h
  rw [M.bind_ok_iff] at h
  obtain ⟨u1, s1, h1, h⟩ := h
  have e1 : s1 = s := by
    unfold updateAlias at h1
    rw [ho] at h1
    dsimp only at h1
    rw [if_neg (by simp [hn])] at h1
    exact (M.pure_ok.1 h1).2.symm
  subst e1
  rw [M.bind_ok_iff] at h
  obtain ⟨c, s2, h2, h⟩ := h
  obtain ⟨rfl, hs2⟩ := updateCard_ok h2 (fun o' ho' => by rw [ho] at ho'; injection ho' with ho'; rw [← ho']; exact hc)
  rw [ho] at hs2
  rw [if_neg (by simp)] at hs2
  have hs2' : s2 = s1 := hs2
  subst hs2'
  have h3 : storeProfile a { p with cardNumber := p.cardNumber } s2 = (.ok (), { s2 with profiles := s2.profiles.set a p }) := rfl
  rw [M.bind_ok h3] at h
  rw [M.bind_ok_iff] at h
  obtain ⟨u4, s4, h4, h⟩ := h
  have e4 : s4.bank = s2.bank ∧ s4.profiles = s2.profiles.set a p ∧ s4.params = s2.params ∧ s4.now = s2.now := by
    unfold ensureAccount at h4
    rw [M.get_bind_ok] at h4
    split at h4
    · rw [← (M.pure_ok.1 h4).2]; exact ⟨rfl, rfl, rfl, rfl⟩
    · rw [M.bind_ok_iff] at h4
      obtain ⟨n, s5, h5, h6⟩ := h4
      rw [← (M.pure_ok.1 h6).2]
      simp only [newAccount, Prod.mk.injEq] at h5
      rw [← h5.2]; exact ⟨rfl, rfl, rfl, rfl⟩
  unfold tellReferral at h
  rw [M.get_bind_ok] at h
  have e5 : t.bank = s4.bank ∧ t.profiles = s4.profiles ∧ t.params = s4.params ∧ t.now = s4.now := by
    split at h
    · simp only [onReferral, Prod.mk.injEq] at h
      rw [← h.2]; exact ⟨rfl, rfl, rfl, rfl⟩
    · rw [← (M.pure_ok.1 h).2]; exact ⟨rfl, rfl, rfl, rfl⟩
  exact ⟨e5.1.trans e4.1, e5.2.1.trans e4.2.1, e5.2.2.1.trans e4.2.2.1, e5.2.2.2.trans e4.2.2.2⟩

theorem onBank_ok {α : Type} {m : M Bank.State α} {x : α} {s t : State} (h : onBank m s = (.ok x, t)) :
    ∃ b, m s.bank = (.ok x, b) ∧ t = { s with bank := b } := by
  unfold onBank at h
  rcases hm : m s.bank with ⟨r, b⟩
  rw [hm] at h
  simp only [Prod.mk.injEq] at h
  exact ⟨b, by rw [h.1], h.2.symm⟩

theorem onReferral_ok {c : RefCall} {s t : State} {u : Unit} (h : onReferral c s = (.ok u, t)) : t.bank = s.bank := by
  simp only [onReferral, Prod.mk.injEq] at h
  rw [← h.2]

theorem comeBack_ok {e : Env} {a : Addr} {s t : State} {u : Unit} (h : comeBack e a s = (.ok u, t)) : t.bank = s.bank := by
  unfold comeBack at h
  cases hb : e.banished a with
  | none => rw [hb] at h; simp at h
  | some b =>
    rw [hb] at h
    cases b with
    | true => exact onReferral_ok h
    | false => rw [← (M.pure_ok.1 h).2]

/-! ### C41 -/

/-- The balances after `x` pays `total`, of which the pool gets `fee` and the company account the rest. -/
def Paid (s t : Bank.State) (payer company pool : Bank.Addr) (total fee : Int) : Prop :=
  (∀ x d, (balance t x).amt d = (balance s x).amt d + (if d = .main then
    (if x = company then total - fee else 0) + (if x = pool then fee else 0) - (if x = payer then total else 0) else 0)) ∧
  t.supply = s.supply

theorem payTotal_ok {e : Env} {a : Addr} {total fee : Int} {s t : State} {u : Unit} (h : payTotal e a total fee s = (.ok u, t)) :
    Paid s.bank t.bank a e.company e.bank.splitCollector total fee ∧ 0 ≤ fee ∧ fee ≤ total := by
  unfold payTotal at h
  rw [M.panicIf_bind_ok, M.panicIf_bind_ok, M.panicIf_bind_ok] at h
  obtain ⟨h1, h2, -, h⟩ := h
  obtain ⟨b, hb, rfl⟩ := onBank_ok h
  obtain ⟨hm, -, -⟩ := inputOutputCoins_moved hb
  simp only [decide_eq_false_iff_not, not_lt] at h1 h2
  refine ⟨⟨fun x d => ?_, hm.supply⟩, h2, by omega⟩
  rw [hm.bal x d]
  congr 1
  by_cases hf : fee = 0
  · simp only [hf, if_true, List.map_cons, List.map_nil, List.sum_cons, List.sum_nil, Coins.amt_ofMain]
    split <;> split <;> split <;> simp
  · simp only [if_neg hf, List.map_cons, List.map_nil, List.sum_cons, List.sum_nil, Coins.amt_ofMain]
    split <;> split <;> split <;> split <;> simp

theorem storageAsked_eq {p : Params} {o : Profile} {g : Nat} (h : (tariffStorage? p o g).isNone = false) :
    (tariffStorage? p o g).getD 0 = storageAsked p o g := by
  unfold tariffStorage? at *
  unfold storageAsked
  rw [gb_eq] at *
  by_cases hg : g = 0
  · rw [if_pos hg, if_neg (not_not.2 hg)]
    split <;> rw [Option.getD_some]
  · rw [if_neg hg] at h ⊢
    rw [if_pos hg]
    by_cases h1 : g < p.baseStorageGb
    · rw [if_pos h1] at h; cases h
    · rw [if_neg h1] at h ⊢
      by_cases h2 : g * 1073741824 < o.storageCurrent
      · rw [if_pos h2] at h; cases h
      · rw [if_neg h2, Option.getD_some]

/-- **C41.** A successful payment, automatic or not: the end of the subscription moves by a month, from its previous end or from
now; the payer pays the total by the price list (computed in 64-bit arithmetic), which goes to the company account and, as far as
the transaction fee of the price without storage goes, to the fee pool. -/
theorem C41_paid_month {e : Env} {a : Addr} {g : Nat} {auto : Bool} {s t : State} {u : Unit} (hm : e.month ≠ 0)
    (h : payTariff e a g auto s = (.ok u, t)) :
    ∃ o n fee, s.profiles.get a = some o ∧ t.profiles.get a = some n ∧
      n.activeUntil = (if (∃ v, o.activeUntil = some v ∧ s.now < v) ∨ auto = true then o.activeUntil.map (· + e.month) else some (s.now + e.month)) ∧
      n.activeUntil ≠ none ∧
      calculateFee? (trunc (s.params.tokenRate.toRat * s.params.subscriptionPrice)) s.bank.params.fee.rate s.bank.params.fee.maxFee
        s.bank.params.fee.forProposer s.bank.params.fee.forCompany = some fee ∧
      0 ≤ fee ∧ fee ≤ quote asInt64 s.params (storageAsked s.params o g) o.storageLimit (restOf o s.now e.month) ∧
      Paid s.bank t.bank a e.company e.bank.splitCollector
        (quote asInt64 s.params (storageAsked s.params o g) o.storageLimit (restOf o s.now e.month)) fee := by
  unfold payTariff at h
  rw [M.get_bind_ok, M.orPanic_bind_ok] at h
  obtain ⟨o, ho, h⟩ := h
  rw [M.errIf_bind_ok] at h
  obtain ⟨hst, h⟩ := h
  rw [M.orPanic_bind_ok] at h
  obtain ⟨q, hq, h⟩ := h
  rw [M.bind_ok_iff] at h
  obtain ⟨_, s1, h1, h⟩ := h
  rw [M.bind_ok_iff] at h
  obtain ⟨_, s2, h2, h⟩ := h
  rw [M.orPanic_bind_ok] at h
  obtain ⟨n, hn, h⟩ := h
  rw [M.bind_ok_iff] at h
  obtain ⟨_, s3, h3, h⟩ := h
  have q1 := comeBack_quiet e a s
  rw [h1] at q1
  have q2 := payTotal_quiet e a q.1 q.2 s1
  rw [h2] at q2
  have q3 := schedule_quiet (n.activeUntil.getD 0) refreshHook [a] s2
  have h3' : onSched (.schedule (n.activeUntil.getD 0) refreshHook [a]) s2 = (.ok _, s3) := h3
  rw [h3'] at q3
  have ho3 : s3.profiles.get a = some o := by rw [q3.profiles, q2.profiles, q1.profiles]; exact ho
  obtain ⟨n1, n2, n3⟩ := renewed_id hn
  obtain ⟨b4, p4, -, -⟩ := setProfile_same_ok h ho3 n1 n2
  obtain ⟨p2, f2, l2⟩ := payTotal_ok h2
  have b3 : s3.bank = s2.bank := by
    unfold onSched at h3'
    rcases hx : (Schedule.Req.schedule (n.activeUntil.getD 0) refreshHook [a]).exec? s2.sched with _ | x
    · rw [hx] at h3'; simp at h3'
    · rw [hx] at h3'; simp only [Prod.mk.injEq] at h3'; rw [← h3'.2]
  rw [storageAsked_eq hst] at hq
  obtain ⟨t1, t2⟩ := tariffTotal?_spec hm hq
  rw [t1] at p2 l2
  rw [comeBack_ok h1] at p2
  refine ⟨o, n, q.2, ho, by rw [p4, KV.get_set_self], ?_, ?_, t2, f2, l2, by rw [b4, b3]; exact p2⟩
  · rw [n3]
    have hact : o.isActive s.now = true ↔ ∃ v, o.activeUntil = some v ∧ s.now < v := by
      unfold Profile.isActive
      cases o.activeUntil with
      | none => simp
      | some v => simp
    by_cases hc : o.isActive s.now = false ∧ auto = false
    · rw [if_pos hc, if_neg]
      rintro (hh | hh)
      · rw [← hact, hc.1] at hh; cases hh
      · rw [hc.2] at hh; cases hh
    · rw [if_neg hc, if_pos]
      by_cases hh : o.isActive s.now = true
      · exact Or.inl (hact.1 hh)
      · right
        by_contra hau
        exact hc ⟨by simpa using hh, by simpa using hau⟩
  · unfold renewed? at hn
    dsimp only at hn
    rw [n3]
    split at hn
    · next hc => rw [if_pos hc]; simp
    · next hc =>
      rw [if_neg hc]
      cases hu : o.activeUntil with
      | none => rw [hu] at hn; cases hn
      | some v => simp

/-! ### C47 -/

/-- In exact arithmetic the storage part is not negative if at least the base allowance is paid for and a running subscription
keeps its limit. -/
theorem storageQuote_nonneg {i : ℤ → ℤ} (hi : ∀ x, i x = x) {rate : ℚ} {price base b l : ℕ} {rest : Option ℚ} (hr : 0 ≤ rate) {k : ℕ} (hk' : (base : ℤ) * 1073741824 = (k : ℤ))
    (hb : k ≤ b) : 0 ≤ storageQuote i rate price base b l rest := by
  have h0 : 0 ≤ byGb rate (((b : ℤ) - (k : ℤ)) * (price : ℤ)) := by
    unfold byGb
    refine div_nonneg (mul_nonneg hr ?_) (by norm_num)
    have : (0 : ℤ) ≤ ((b : ℤ) - k) * price := mul_nonneg (by omega) (by omega)
    exact_mod_cast this
  cases rest with
  | none => simp only [storageQuote, hi, hk']; exact h0
  | some r =>
    simp only [storageQuote, hi, hk']
    split
    · exact h0
    · exact le_max_left _ _

theorem trunc_nonneg {q : ℚ} (h : 0 ≤ q) : 0 ≤ trunc q := by
  unfold trunc; rw [if_pos h]; exact Int.floor_nonneg.2 h

/-- 64-bit arithmetic is exact as long as the price of the storage fits. -/
theorem storageQuote_exact {i : ℤ → ℤ} (hi : ∀ x, i x = x) {rate : ℚ} {price base b l : ℕ} {rest : Option ℚ} {k : ℕ} (hk' : (base : ℤ) * 1073741824 = (k : ℤ))
    (hb : k ≤ b) (hbl : b < 2 ^ 63) (hl : l < 2 ^ 63) (hp : (b - k) * price < 2 ^ 63) :
    storageQuote asInt64 rate price base b l rest = storageQuote i rate price base b l rest := by
  have e1 : asInt64 (b : ℤ) = b := asInt64_id ⟨by omega, by omega⟩
  have e2 : asInt64 (k : ℤ) = (k : ℤ) := asInt64_id ⟨by omega, by omega⟩
  have e3 : asInt64 (l : ℤ) = l := asInt64_id ⟨by omega, by omega⟩
  have e4 : asInt64 (((b : ℤ) - (k : ℤ)) * price) = ((b : ℤ) - (k : ℤ)) * price := by
    have h1 : (((b - k) * price : ℕ) : ℤ) = ((b : ℤ) - k) * price := by rw [Nat.cast_mul, Nat.cast_sub hb]
    generalize (b - k) * price = x at *
    rw [← h1]
    exact asInt64_id ⟨by omega, by omega⟩
  have e5 : asInt64 ((b : ℤ) - l) = (b : ℤ) - l := asInt64_id ⟨by omega, by omega⟩
  cases rest with
  | none => simp only [storageQuote, hk', e1, e2, e4, hi]
  | some r => simp only [storageQuote, hk', e1, e2, e3, e4, e5, hi]

/-- **C47 (partial).** A successful payment takes at least the price of the subscription if the storage on record and the storage
asked for are at least the base allowance and the storage bill fits 64 bits. -/
theorem C47_full_price_partial {e : Env} {a : Addr} {g : Nat} {auto : Bool} {s t : State} {u : Unit} (hm : e.month ≠ 0)
    (h : payTariff e a g auto s = (.ok u, t)) (hr : 0 ≤ s.params.tokenRate.toRat)
    (hstore : ∀ o, s.profiles.get a = some o →
      s.params.baseStorageGb * 1073741824 ≤ storageAsked s.params o g ∧ storageAsked s.params o g < 2 ^ 63 ∧ o.storageLimit < 2 ^ 63 ∧
      (storageAsked s.params o g - s.params.baseStorageGb * 1073741824) * s.params.storageGbPrice < 2 ^ 63)
    (hne : a ≠ e.company) (hne' : a ≠ e.bank.splitCollector) :
    ⌊s.params.tokenRate.toRat * s.params.subscriptionPrice⌋ ≤ (balance s.bank a).main - (balance t.bank a).main := by
  obtain ⟨o, n, fee, ho, -, -, -, -, -, -, hp⟩ := C41_paid_month hm h
  obtain ⟨h1, h2, h3, h4⟩ := hstore o ho
  have hk : (s.params.baseStorageGb : ℤ) * 1073741824 = ((s.params.baseStorageGb * 1073741824 : ℕ) : ℤ) := by omega
  have hb := hp.1 a .main
  rw [if_pos rfl, if_neg hne, if_neg hne', if_pos rfl] at hb
  have hb' : (balance t.bank a).main = (balance s.bank a).main + (0 + 0 -
      quote asInt64 s.params (storageAsked s.params o g) o.storageLimit (restOf o s.now e.month)) := hb
  have h0 := trunc_nonneg (storageQuote_nonneg (i := id) (fun _ => rfl) (rate := s.params.tokenRate.toRat) (price := s.params.storageGbPrice) (l := o.storageLimit)
    (rest := restOf o s.now e.month) hr hk h1)
  have hq : quote asInt64 s.params (storageAsked s.params o g) o.storageLimit (restOf o s.now e.month) =
      ⌊s.params.tokenRate.toRat * s.params.subscriptionPrice⌋ + trunc (storageQuote id s.params.tokenRate.toRat s.params.storageGbPrice
        s.params.baseStorageGb (storageAsked s.params o g) o.storageLimit (restOf o s.now e.month)) := by
    unfold quote
    rw [storageQuote_exact (i := id) (fun _ => rfl) hk h1 h2 h3 h4]
    congr 1
    unfold trunc
    rw [if_pos (mul_nonneg hr (by positivity))]
  rw [hb', hq]
  omega

/-! ### C43 -/

/-- **C43 (partial).** The reset clears the traffic counter and leaves a limit not below the base allowance — and not above the
larger of base allowance and previous limit, provided no more traffic was used than base allowance and limit together. -/
theorem C43_reset_partial (p : Params) (o : Profile) :
    (resetLimits p o).vpnCurrent = 0 ∧ p.baseVpnGb * 1073741824 ≤ (resetLimits p o).vpnLimit ∧
    (o.vpnLimit < 2 ^ 64 → o.vpnCurrent ≤ o.vpnLimit + p.baseVpnGb * 1073741824 →
      (resetLimits p o).vpnLimit ≤ max (p.baseVpnGb * 1073741824) o.vpnLimit) := by
  have hl : (resetLimits p o).vpnLimit = max (p.baseVpnGb * 1073741824)
      (if p.baseVpnGb * 1073741824 < o.vpnCurrent then u64 ((o.vpnLimit : Int) - (o.vpnCurrent - (p.baseVpnGb * 1073741824 : ℕ))) else o.vpnLimit) := by
    unfold resetLimits
    simp only [gb_eq]
    show (if (if p.baseVpnGb * 1073741824 < o.vpnCurrent then u64 ((o.vpnLimit : Int) - (o.vpnCurrent - (p.baseVpnGb * 1073741824 : ℕ))) else o.vpnLimit)
      < p.baseVpnGb * 1073741824 then p.baseVpnGb * 1073741824 else (if p.baseVpnGb * 1073741824 < o.vpnCurrent then u64 ((o.vpnLimit : Int) - (o.vpnCurrent - (p.baseVpnGb * 1073741824 : ℕ))) else o.vpnLimit)) = _
    generalize (if p.baseVpnGb * 1073741824 < o.vpnCurrent then u64 ((o.vpnLimit : Int) - (o.vpnCurrent - (p.baseVpnGb * 1073741824 : ℕ))) else o.vpnLimit) = l
    split
    · next h => rw [Nat.max_eq_left h.le]
    · next h => rw [Nat.max_eq_right (not_lt.1 h)]
  refine ⟨by unfold resetLimits; exact Eq.refl _, by rw [hl]; exact Nat.le_max_left _ _, fun h1 h2 => ?_⟩
  rw [hl]
  generalize p.baseVpnGb * 1073741824 = base at *
  refine max_le_max (le_refl base) ?_
  split
  · next hc => unfold u64; omega
  · exact le_refl _

/-- What the monthly routine stores for a running subscription is the reset profile. -/
theorem monthly_reset {e : Env} {a : Addr} {o : Profile} {s t : State} {u : Unit} (ho : s.profiles.get a = some o)
    (hact : o.isActive s.now = true) (h : monthly e a s = (.ok u, t)) : t.profiles.get a = some (resetLimits s.params o) := by
  unfold monthly at h
  rw [M.get_bind_ok, ho, M.orPanic_bind_ok] at h
  obtain ⟨_, hx, h⟩ := h
  injection hx with hx; subst hx
  rw [if_pos hact] at h
  obtain ⟨h1, h2, -⟩ := resetLimits_id s.params o
  rw [(setProfile_same_ok h ho h1 h2).2.1, KV.get_set_self]

/-! ### C44 -/

/-- **C44.** Giving up storage: the new limit is the requested one, raised to the base allowance; it is below the old limit and
not below what is in use.  Nothing else of the profile changes and nothing is paid. -/
theorem C44_give_up {e : Env} {a : Addr} {g : Nat} {s t : State} {u : Unit} (h : giveStorageUp e a g s = (.ok u, t)) :
    ∃ o n, s.profiles.get a = some o ∧ t.profiles.get a = some n ∧ n = { o with storageLimit := n.storageLimit } ∧
      n.storageLimit = max (s.params.baseStorageGb * 1073741824) (g * 1073741824) ∧
      n.storageLimit < o.storageLimit ∧ o.storageCurrent ≤ n.storageLimit ∧ s.params.baseStorageGb * 1073741824 ≤ n.storageLimit ∧
      t.bank = s.bank := by
  unfold giveStorageUp at h
  rw [M.errIf_bind_ok, M.get_bind_ok, M.orPanic_bind_ok] at h
  obtain ⟨-, o, ho, h⟩ := h
  rw [M.errIf_bind_ok, M.errIf_bind_ok] at h
  obtain ⟨h1, h2, h⟩ := h
  have hl : (if g * gb < s.params.baseStorageGb * gb then s.params.baseStorageGb * gb else g * gb) =
      max (s.params.baseStorageGb * 1073741824) (g * 1073741824) := by
    rw [gb_eq]
    split
    · next hh => rw [Nat.max_eq_left hh.le]
    · next hh => rw [Nat.max_eq_right (not_lt.1 hh)]
  rw [hl] at h1 h2 h
  simp only [decide_eq_false_iff_not, not_lt, not_le] at h1 h2
  obtain ⟨b4, p4, -, -⟩ := setProfile_same_ok h ho rfl rfl
  exact ⟨o, _, ho, by rw [p4, KV.get_set_self], rfl, rfl, h2, h1, Nat.le_max_left _ _, b4⟩

/-- The other way round: buying raises the limit, or the counters wrapped around. -/
theorem buyStorage_limit {e : Env} {a : Addr} {g : Nat} {s t : State} {u : Unit} (h : buyStorage e a g s = (.ok u, t)) :
    ∃ o n, s.profiles.get a = some o ∧ t.profiles.get a = some n ∧
      n = { o with storageLimit := (max (s.params.baseStorageGb * 1073741824) o.storageLimit + g * 1073741824) % 2 ^ 64 } := by
  unfold buyStorage at h
  rw [M.errIf_bind_ok, M.get_bind_ok, M.orPanic_bind_ok] at h
  obtain ⟨-, o, ho, h⟩ := h
  dsimp only at h
  rw [M.errIf_bind_ok, M.orPanic_bind_ok] at h
  obtain ⟨-, f, -, h⟩ := h
  rw [M.orPanic_bind_ok] at h
  obtain ⟨x, -, h⟩ := h
  rw [M.panicIf_bind_ok, M.bind_ok_iff] at h
  obtain ⟨-, _, s1, h1, h⟩ := h
  have q1 := paySplit_quiet e a x s
  rw [h1] at q1
  obtain ⟨-, p4, -, -⟩ := setProfile_same_ok (o := o) h (by rw [q1.profiles]; exact ho) rfl rfl
  refine ⟨o, _, ho, by rw [p4, KV.get_set_self], ?_⟩
  congr 1
  have hl : (if o.storageLimit < s.params.baseStorageGb * gb then s.params.baseStorageGb * gb else o.storageLimit) =
      max (s.params.baseStorageGb * 1073741824) o.storageLimit := by
    rw [gb_eq]
    split
    · next hh => rw [Nat.max_eq_left hh.le]
    · next hh => rw [Nat.max_eq_right (not_lt.1 hh)]
  unfold u64
  rw [hl, gb_eq]
  generalize max (s.params.baseStorageGb * 1073741824) o.storageLimit = m
  omega

end Verif.Profile
