import Verif.Profile.Purchase
import Verif.Profile.Owner
import Verif.Profile.Genesis
import Verif.Bank.Shift

/-! Property C73: requests about profiles are accepted exactly when they should be. -/
namespace Verif.Profile
open Verif.Util Verif.Bank

/-- The request goes through. -/
def Accepted (m : M State Unit) (s : State) : Prop := ∃ t, m s = (.ok (), t)

/-! ### Sequences -/

theorem acc_bind {α : Type} {m : M State α} {f : α → M State Unit} {s : State} :
    Accepted (m >>= f) s ↔ ∃ x s', m s = (.ok x, s') ∧ Accepted (f x) s' := by
  unfold Accepted
  constructor
  · rintro ⟨t, h⟩
    obtain ⟨x, s', h1, h2⟩ := M.bind_ok_iff.1 h
    exact ⟨x, s', h1, t, h2⟩
  · rintro ⟨x, s', h1, t, h2⟩
    exact ⟨t, M.bind_ok_iff.2 ⟨x, s', h1, h2⟩⟩

theorem acc_get {f : State → M State Unit} {s : State} : Accepted (M.get >>= f) s ↔ Accepted (f s) s := Iff.rfl

theorem acc_errIf {c : Bool} {f : Unit → M State Unit} {s : State} : Accepted (M.errIf c >>= f) s ↔ c = false ∧ Accepted (f ()) s := by
  unfold Accepted
  simp only [M.errIf_bind_ok]
  exact ⟨fun ⟨t, h1, h2⟩ => ⟨h1, t, h2⟩, fun ⟨h1, t, h2⟩ => ⟨t, h1, h2⟩⟩

theorem acc_panicIf {c : Bool} {f : Unit → M State Unit} {s : State} : Accepted (M.panicIf c >>= f) s ↔ c = false ∧ Accepted (f ()) s := by
  unfold Accepted
  simp only [M.panicIf_bind_ok]
  exact ⟨fun ⟨t, h1, h2⟩ => ⟨h1, t, h2⟩, fun ⟨h1, t, h2⟩ => ⟨t, h1, h2⟩⟩

theorem acc_orPanic {α : Type} {o : Option α} {f : α → M State Unit} {s : State} :
    Accepted (M.orPanic o >>= f) s ↔ ∃ x, o = some x ∧ Accepted (f x) s := by
  unfold Accepted
  simp only [M.orPanic_bind_ok]
  exact ⟨fun ⟨t, x, h1, h2⟩ => ⟨x, h1, t, h2⟩, fun ⟨x, h1, t, h2⟩ => ⟨t, x, h1, h2⟩⟩

theorem acc_onBank {m : M Bank.State Unit} {s : State} : Accepted (onBank m) s ↔ (m s.bank).1.isOk = true := by
  unfold Accepted onBank
  rcases h : m s.bank with ⟨r, b⟩
  cases r with
  | ok u => simp
  | err => simp
  | panic => simp

theorem acc_referral {c : RefCall} {s : State} : Accepted (onReferral c) s ↔ c.1 = .ok () := by
  unfold Accepted onReferral
  constructor
  · rintro ⟨t, h⟩; exact congrArg Prod.fst h
  · intro h; exact ⟨_, by rw [h]⟩

theorem M.bind_assoc {σ α β γ : Type} (m : M σ α) (f : α → M σ β) (g : β → M σ γ) : m >>= f >>= g = m >>= fun x => f x >>= g := by
  funext s
  show M.bind (M.bind m f) g s = M.bind m (fun x => M.bind (f x) g) s
  unfold M.bind
  rcases m s with ⟨r, t⟩
  cases r <;> rfl

theorem M.pure_bind {σ α β : Type} (x : α) (f : α → M σ β) : (pure x : M σ α) >>= f = f x := rfl

/-! ### Payments -/

/-- Money is in order: balance changes are not refused by the hooks (C58), no balance is negative (C07), the parameters of the
transaction fee are accepted ones with a rate of at most one (C05). -/
structure Sound (e : Env) (s : State) : Prop where
  hooks : HooksOk e.bank
  nonneg : ∀ a d, 0 ≤ (balance s.bank a).amt d
  fees : validateFeeParams? s.bank.params.fee = some true
  rate : s.bank.params.fee.rate.denom ≠ 0
  low : s.bank.params.fee.rate.toRat ≤ 1

theorem send_main {e : Bank.Env} (he : HooksOk e) {a b : Addr} {x : Int} {s : Bank.State} (hs : NonNeg s) :
    (sendCoins e a b (Coins.ofMain x) s).1.isOk = true ↔ 0 ≤ x ∧ x ≤ (balance s a).main := by
  rw [sendCoins_succeeds he hs]
  constructor
  · intro h
    have := h .main
    rw [Coins.amt_ofMain, if_pos rfl] at this
    exact this
  · intro h d
    rw [Coins.amt_ofMain]
    split
    · next hd => subst hd; exact h
    · exact ⟨le_refl _, hs _ _⟩

theorem chargeFee_iff {e : Env} {s : State} (h : Sound e s) {a : Addr} {x : Int} :
    Accepted (chargeFee e a x) s ↔ 0 ≤ x ∧ x ≤ (balance s.bank a).main := by
  unfold chargeFee
  rw [acc_panicIf, acc_onBank, send_main h.hooks h.nonneg, decide_eq_false_iff_not]
  omega

theorem paySplit_iff {e : Env} {s : State} (h : Sound e s) {a : Addr} (ha : a ≠ e.bank.splitCollector) {x : Int} :
    Accepted (paySplit e a x) s ↔ 0 ≤ x ∧ x < 2 ^ 63 ∧ x ≤ (balance s.bank a).main := by
  unfold paySplit
  rw [acc_panicIf, acc_bind, decide_eq_false_iff_not, not_lt]
  refine and_congr_right fun hx => ?_
  constructor
  · rintro ⟨fee, s1, h1, h2⟩
    rw [acc_panicIf] at h2
    obtain ⟨h2, t, h3⟩ := h2
    simp only [decide_eq_false_iff_not, not_lt] at h2
    obtain ⟨b1, hb1, rfl⟩ := onBank_ok h1
    obtain ⟨b2, hb2, -⟩ := onBank_ok h3
    obtain ⟨m1, -, f1, f2, -⟩ := payTxFee_moved hb1
    obtain ⟨-, -, -, l2⟩ := sendCoins_moved hb2
    constructor
    · by_contra hh
      unfold txFeeOf? at f1
      have hne : (Coins.ofMain x).main ≠ 0 := by show x ≠ 0; omega
      rw [if_neg (by simp [Coins.ofMain]), if_neg hne] at f1
      have : calculateFee? (Coins.ofMain x).main s.bank.params.fee.rate s.bank.params.fee.maxFee s.bank.params.fee.forProposer
          s.bank.params.fee.forCompany = none := C03_huge_amount_refused s.bank.params.fee x (not_lt.1 hh)
      rw [this] at f1; cases f1
    · have h4 := l2 .main
      dsimp only at h4
      rw [Coins.amt_ofMain, if_pos rfl] at h4
      have h5 := m1.bal a .main
      simp only [if_true, if_neg ha, Coins.amt_ofMain] at h5
      have e1 : (balance s.bank a).amt .main = (balance s.bank a).main := rfl
      rw [e1] at h5
      omega
  · rintro ⟨hlt, hle⟩
    obtain ⟨fee, l, -, q2, -, -, q5, q6⟩ := C03_fee_within_amount_partial s.bank.params.fee x h.fees h.rate h.low hx hlt
    have hfee : ∃ fee, txFeeOf? s.bank.params (Coins.ofMain x) = some fee ∧ 0 ≤ fee ∧ fee ≤ x := by
      unfold txFeeOf?
      rw [if_neg (by simp [Coins.ofMain])]
      by_cases h0 : x = 0
      · exact ⟨0, by rw [if_pos (show (Coins.ofMain x).main = 0 from h0)], by omega, by omega⟩
      · rw [if_neg (show (Coins.ofMain x).main ≠ 0 from h0)]
        refine ⟨fee, ?_, q5, q6⟩
        show (calculateFee? x _ _ _ _ >>= _) = _
        rw [q2]
        simp only [Option.bind_eq_bind, Option.bind_some]
        rw [if_neg (by omega)]
    obtain ⟨fee, f1, f2, f3⟩ := hfee
    have hpay : ∃ b, payTxFee e.bank a (Coins.ofMain x) s.bank = (.ok fee, b) := by
      rw [payTxFee_run f1]
      by_cases h0 : fee = 0
      · rw [if_pos h0, h0]; exact ⟨_, rfl⟩
      · rw [if_neg h0]
        have hok := (send_main h.hooks h.nonneg (a := a) (b := e.bank.splitCollector)).2 ⟨f2, f3.trans hle⟩
        obtain ⟨⟨⟩, hok⟩ := Res.isOk_iff.1 hok
        exact ⟨_, M.bind_ok (f := fun _ => (Pure.pure fee : M Bank.State Int)) (Prod.ext hok rfl)⟩
    obtain ⟨b, hb⟩ := hpay
    refine ⟨fee, { s with bank := b }, ?_, ?_⟩
    · unfold onBank; rw [hb]
    · obtain ⟨m1, -, -, -, -⟩ := payTxFee_moved hb
      have nb : NonNeg b := by
        have := payTxFee_nonneg e.bank a (Coins.ofMain x) s.bank h.nonneg
        rw [hb] at this; exact this
      rw [acc_panicIf, acc_onBank]
      refine ⟨by simp; omega, (send_main h.hooks nb).2 ⟨by omega, ?_⟩⟩
      have h5 := m1.bal a .main
      simp only [if_true, if_neg ha, Coins.amt_ofMain] at h5
      have e1 : ∀ b, (balance b a).amt .main = (balance b a).main := fun _ => rfl
      rw [e1, e1] at h5
      show x - fee ≤ (balance b a).main
      omega

theorem addAll_succ {e : Bank.Env} (he : HooksOk e) (l : List InOut) (s : Bank.State) (hs : NonNeg s)
    (hl : ∀ o ∈ l, ∀ d, 0 ≤ o.coins.amt d) : ∃ t, M.forEach l (fun x => addCoins e x.addr x.coins) s = (.ok (), t) := by
  induction l generalizing s with
  | nil => exact ⟨s, rfl⟩
  | cons o l ih =>
    obtain ⟨t, ht⟩ := addCoins_succ he (a := o.addr) hs (hl o (by simp))
    have nt : NonNeg t := by have := addCoins_nonneg e o.addr o.coins s hs; rw [ht] at this; exact this
    obtain ⟨t2, ht2⟩ := ih t nt (fun o' ho' => hl o' (by simp [ho']))
    exact ⟨t2, by rw [M.forEach_cons, M.bind_ok ht]; exact ht2⟩

theorem single_iff {e : Bank.Env} (he : HooksOk e) {i : InOut} {outs : List InOut} {b : Bank.State} (hb : NonNeg b) :
    (inputOutputCoins e [i] outs b).1.isOk = true ↔
      validateInputsOutputs [i] outs = true ∧ ∀ d, i.coins.amt d ≤ (balance b i.addr).amt d := by
  constructor
  · intro h
    obtain ⟨⟨⟩, h⟩ := Res.isOk_iff.1 h
    have h := (Prod.ext h rfl : inputOutputCoins e [i] outs b = (.ok (), _))
    unfold inputOutputCoins at h
    rw [M.errIf_bind_ok, M.bind_ok_iff] at h
    obtain ⟨hv, _, s1, h1, -⟩ := h
    rw [M.forEach_cons] at h1
    obtain ⟨_, s2, h2, -⟩ := M.bind_ok_iff.1 h1
    obtain ⟨m, -, n, -⟩ := subtractCoins_moved h2
    refine ⟨by simpa using hv, fun d => ?_⟩
    have h3 := m.bal i.addr d
    have h4 := n d
    rw [h3] at h4
    simp only [if_true] at h4
    omega
  · rintro ⟨hv, hle⟩
    have hv' := hv
    unfold validateInputsOutputs at hv'
    simp only [Bool.and_eq_true, List.all_eq_true] at hv'
    have hok : ∀ x : InOut, x.ok = true → ∀ d, 0 ≤ x.coins.amt d := by
      intro x hx
      unfold InOut.ok at hx
      rw [Bool.and_eq_true] at hx
      exact (Coins.valid_iff _).1 hx.1
    obtain ⟨b1, h1⟩ := subtractCoins_succ he (hok i (hv'.1.1 i (by simp))) hle
    have n1 : NonNeg b1 := by have := subtractCoins_nonneg e i.addr i.coins b hb; rw [h1] at this; exact this
    obtain ⟨b2, h2⟩ := addAll_succ he outs b1 n1 fun o ho => hok o (hv'.1.2 o ho)
    have : inputOutputCoins e [i] outs b = (.ok (), b2) := by
      unfold inputOutputCoins
      rw [hv]
      show (M.errIf false >>= _) b = _
      rw [M.bind_ok (M.errIf_false b), M.bind_ok (a := ()) (s' := b1)]
      · exact h2
      · rw [M.forEach_cons, M.bind_ok h1]; rfl
    rw [this]; rfl

theorem payTotal_iff {e : Env} {s : State} (h : Sound e s) {a : Addr} {total fee : Int} :
    Accepted (payTotal e a total fee) s ↔ 0 ≤ fee ∧ fee < total ∧ total ≤ (balance s.bank a).main := by
  unfold payTotal
  rw [acc_panicIf, acc_panicIf, acc_panicIf, acc_onBank, single_iff h.hooks h.nonneg]
  simp only [decide_eq_false_iff_not, not_lt]
  have hval : ∀ y : Int, (InOut.ok ⟨a, Coins.ofMain y⟩ = true ↔ 0 < y) ∧ ∀ b : Addr, (InOut.ok ⟨b, Coins.ofMain y⟩ = true ↔ 0 < y) := by
    intro y
    have : ∀ b : Addr, (InOut.ok ⟨b, Coins.ofMain y⟩ = true ↔ 0 < y) := by
      intro b
      unfold InOut.ok Coins.ofMain Coins.valid Coins.isEmpty
      simp
      omega
    exact ⟨this a, this⟩
  have htot : validateInputsOutputs [⟨a, Coins.ofMain total⟩]
      (⟨e.company, Coins.ofMain (total - fee)⟩ :: if fee = 0 then [] else [⟨e.bank.splitCollector, Coins.ofMain fee⟩]) = true ↔
      0 < total ∧ 0 < total - fee ∧ (fee ≠ 0 → 0 < fee) := by
    unfold validateInputsOutputs
    by_cases h0 : fee = 0
    · subst h0
      simp only [if_true, List.all_cons, List.all_nil, Bool.and_true, Bool.and_eq_true, (hval _).2, decide_eq_true_eq, sub_zero, totalCoins,
        List.foldl_cons, List.foldl_nil]
      simp
    · simp only [if_neg h0, List.all_cons, List.all_nil, Bool.and_true, Bool.and_eq_true, (hval _).2, decide_eq_true_eq, totalCoins,
        List.foldl_cons, List.foldl_nil]
      have : ((({} : Coins).add (Coins.ofMain (total - fee))).add (Coins.ofMain fee)) = ({} : Coins).add (Coins.ofMain total) := by
        unfold Coins.ofMain Coins.add
        simp
      rw [this]
      simp [h0]
  rw [htot]
  have hd : (∀ d, (Coins.ofMain total).amt d ≤ (balance s.bank a).amt d) ↔ total ≤ (balance s.bank a).main := by
    constructor
    · intro h
      have := h .main
      rw [Coins.amt_ofMain, if_pos rfl] at this
      exact this
    · intro hh d
      rw [Coins.amt_ofMain]
      split
      · next hd => subst hd; exact hh
      · exact h.nonneg _ _
  rw [hd]
  constructor
  · rintro ⟨h1, h2, h3, ⟨h4, h5, h6⟩, h7⟩; exact ⟨h2, by omega, h7⟩
  · rintro ⟨h1, h2, h3⟩; exact ⟨by omega, h1, by omega, ⟨by omega, by omega, fun _ => by omega⟩, h3⟩

/-! ### Saving a profile -/

/-- The stored nickname of an account is acceptable for that account. -/
theorem nick_ok {T : TextOps} {e : Env} (he : e.text = T) {s : State} (hi : Nicks T s) (hc : Clear T s) {a : Addr} {o : Profile}
    (ho : s.profiles.get a = some o) : nicknameOk e s a (e.text.trim o.nickname) = true := by
  unfold nicknameOk byNickname
  rw [he]
  by_cases hn : T.trim o.nickname = []
  · simp [hn]
  · rw [hi a o ho hn]
    rcases hc a o ho with h | h
    · exact absurd h hn
    · simp [h]

theorem acc_tell {e : Env} {a : Addr} {old : Option Profile} {p : Profile} {s : State} : Accepted (tellReferral e a old p) s ↔
    (p.isActive s.now = (old.map (·.isActive s.now)).getD false ∨ (e.setActive a (p.isActive s.now)).1 = .ok ()) := by
  unfold tellReferral
  rw [acc_get]
  split
  · next h => rw [acc_referral]; simp [h]
  · next h => exact iff_of_true ⟨s, rfl⟩ (.inl (by simpa using h))

/-- States in which nicknames, cards and accounts fit together. -/
structure Fit (T : TextOps) (s : State) : Prop where
  ids : Ids T s
  clear : Clear T s

theorem TextReachable.fit {T : TextOps} (hT : TextOk T) {s : State} (h : TextReachable T s) : Fit T s := ⟨h.reachable.ids hT, h.clear⟩

theorem Same.fit {T : TextOps} {s t : State} (h : Same s t) (hf : Fit T s) : Fit T t := ⟨h.ids hf.ids, hf.clear.of_profiles h.profiles⟩

theorem Same.sound {e : Env} {s t : State} (hb : t.bank = s.bank) (hs : Sound e s) : Sound e t :=
  ⟨hs.hooks, by rw [hb]; exact hs.nonneg, by rw [hb]; exact hs.fees, by rw [hb]; exact hs.rate, by rw [hb]; exact hs.low⟩

/-- Saving a profile with the nickname and card on record fails only if the referral module does not want to hear the news. -/
theorem save_iff {T : TextOps} {e : Env} (he : e.text = T) {s : State} (hf : Fit T s) {a : Addr} {o p : Profile}
    (ho : s.profiles.get a = some o) (hn : p.nickname = o.nickname) (hc : p.cardNumber = o.cardNumber) :
    Accepted (setProfile e a p) s ↔ (p.isActive s.now = o.isActive s.now ∨ (e.setActive a (p.isActive s.now)).1 = .ok ()) := by
  obtain ⟨n, hacc, -⟩ := hf.ids.cards a o ho
  have hok : nicknameOk e s a (e.text.trim p.nickname) = true := by rw [hn]; exact nick_ok he hf.ids.nicks hf.clear ho
  have heq : setProfile e a p s = tellReferral e a (some o) p { s with profiles := s.profiles.set a p } := by
    unfold setProfile
    have h3 : updateAlias e a (s.profiles.get a) p.nickname s = (.ok (), s) := by
      rw [ho]; unfold updateAlias; dsimp only
      rw [if_neg (by simp [hn])]; rfl
    have h2 : updateCard a (s.profiles.get a) p.cardNumber s = (.ok p.cardNumber, s) := by
      rw [ho]; unfold updateCard; dsimp only
      split
      · rw [M.bind_ok (a := ()) (s' := s)]
        · rfl
        · simp [when, hc]
      · rw [hc]; rfl
    have h4 : storeProfile a { p with cardNumber := p.cardNumber } s = (.ok (), { s with profiles := s.profiles.set a p }) := rfl
    rw [M.bind_ok (M.get_apply s), hok, Bool.not_true, M.bind_ok (M.errIf_false s), M.bind_ok h3, M.bind_ok h2, M.bind_ok h4,
      M.bind_ok (ensureAccount_has (by exact has_of_get hacc)), ho]
  unfold Accepted
  rw [heq]
  exact acc_tell

theorem save_still {T : TextOps} {e : Env} (he : e.text = T) {s : State} (hf : Fit T s) {a : Addr} {o p : Profile}
    (ho : s.profiles.get a = some o) (hn : p.nickname = o.nickname) (hc : p.cardNumber = o.cardNumber) (hu : p.activeUntil = o.activeUntil) :
    Accepted (setProfile e a p) s := by
  rw [save_iff he hf ho hn hc]
  left
  unfold Profile.isActive
  rw [hu]

/-- A moment the schedule can represent: from 1970 to 2262. -/
def Datable (T : Int) : Prop := 0 ≤ T ∧ T < 9246182400000000000

theorem datable_iff {T : Int} : Schedule.inRange T = true ↔ Datable T := by
  unfold Schedule.inRange Schedule.timeEnd Datable; simp

theorem sched_iff {T : Int} {h : Nat} {d : List Nat} {s : State} {f : Unit → M State Unit} {P : Prop}
    (hq : ∀ t, t.bank = s.bank → Same s t → (Accepted (f ()) t ↔ P)) :
    Accepted (onSched (.schedule T h d) >>= f) s ↔ Datable T ∧ P := by
  rw [acc_bind, ← datable_iff]
  by_cases hr : Schedule.inRange T = true
  · have h1 : ∃ t, onSched (.schedule T h d) s = (.ok (), t) := by
      unfold onSched Schedule.Req.exec? Schedule.schedule?
      dsimp only
      rw [if_pos hr]
      exact ⟨_, rfl⟩
    obtain ⟨t, h1⟩ := h1
    have q := schedule_quiet T h d s
    rw [h1] at q
    rw [← hq t (onSched_bank h1) q]
    constructor
    · rintro ⟨_, t', h2, h3⟩
      rw [h1] at h2
      simp only [Prod.mk.injEq, true_and] at h2
      exact ⟨hr, h2 ▸ h3⟩
    · rintro ⟨-, h3⟩; exact ⟨(), t, h1, h3⟩
  · refine iff_of_false ?_ fun hh => hr hh.1
    rintro ⟨_, t, h1, -⟩
    unfold onSched Schedule.Req.exec? Schedule.schedule? at h1
    dsimp only at h1
    rw [if_neg hr] at h1; simp at h1

theorem delete_iff {T : Int} {d : List Nat} {s : State} {f : Unit → M State Unit} {P : Prop}
    (hq : ∀ t, t.bank = s.bank → Same s t → (Accepted (f ()) t ↔ P)) :
    Accepted (onSched (.delete T refreshImHook d) >>= f) s ↔ Datable T ∧ P := by
  rw [acc_bind, ← datable_iff]
  by_cases hr : Schedule.inRange T = true
  · have h1 : ∃ t, onSched (.delete T refreshImHook d) s = (.ok (), t) := by
      unfold onSched Schedule.Req.exec? Schedule.delete?
      dsimp only
      rw [if_pos hr]
      split
      · exact ⟨_, rfl⟩
      · next hc =>
        exfalso
        split at hc <;> cases hc
    obtain ⟨t, h1⟩ := h1
    have q := deleteIm_quiet T d s
    rw [h1] at q
    rw [← hq t (onSched_bank h1) q]
    constructor
    · rintro ⟨_, t', h2, h3⟩
      rw [h1] at h2
      simp only [Prod.mk.injEq, true_and] at h2
      exact ⟨hr, h2 ▸ h3⟩
    · rintro ⟨-, h3⟩; exact ⟨(), t, h1, h3⟩
  · refine iff_of_false ?_ fun hh => hr hh.1
    rintro ⟨_, t, h1, -⟩
    unfold onSched Schedule.Req.exec? Schedule.delete? at h1
    dsimp only at h1
    rw [if_neg hr] at h1; simp at h1

theorem pay_iff {e : Env} {s : State} (h : Sound e s) {a : Addr} (ha : a ≠ e.bank.splitCollector) {x : Int} {f : Unit → M State Unit} {P : Prop}
    (hq : ∀ t, Same s t → (Accepted (f ()) t ↔ P)) :
    Accepted (paySplit e a x >>= f) s ↔ (0 ≤ x ∧ x < 2 ^ 63 ∧ x ≤ (balance s.bank a).main) ∧ P := by
  rw [acc_bind, ← paySplit_iff h ha]
  constructor
  · rintro ⟨_, t, h1, h2⟩
    have q := paySplit_quiet e a x s
    rw [h1] at q
    exact ⟨⟨t, h1⟩, (hq t q).1 h2⟩
  · rintro ⟨⟨t, h1⟩, h2⟩
    have q := paySplit_quiet e a x s
    rw [h1] at q
    exact ⟨(), t, h1, (hq t q).2 h2⟩

/-! ### Prices -/

theorem int64?_some (x : Frac) (h : x.denom ≠ 0) : ∃ i, x.int64? = some i := by
  unfold Frac.int64?
  rw [bigInt?_trunc x h]
  exact ⟨_, rfl⟩

theorem denom_of_pos {x : Frac} (h : 0 < x.toRat) : x.denom ≠ 0 := by
  intro h0
  unfold Frac.toRat at h
  rw [h0] at h
  simp at h

theorem monthPart?_some (e : Env) (hm : e.month ≠ 0) (now u : Int) : ∃ t, monthPart? e now u = some t := by
  obtain ⟨t', t1, -⟩ := Frac.reduce?_spec ⟨u - now, e.month⟩ hm
  exact ⟨t', t1⟩

theorem extraFee?_some (p : Params) (g : Nat) {t : Frac} (hp : p.tokenRate.denom ≠ 0) (ht : t.denom ≠ 0) : ∃ f, extraFee? p g t = some f := by
  unfold extraFee?
  obtain ⟨x, x1, x2, -⟩ := mulInt?_spec p.tokenRate (wrap64 ((g : Int) * p.storageGbPrice)) hp
  obtain ⟨y, y1, y2, -, -⟩ := Frac.mul?_spec x t x2.ne' ht
  obtain ⟨i, hi⟩ := int64?_some y y2.ne'
  exact ⟨i, by simp only [x1, y1, hi, Option.bind_eq_bind, Option.bind_some]⟩

/-! ### C73: purchases -/

/-- **C73, storage.** Extra storage is sold exactly to running subscriptions that can pay a bill of at least one uartr. -/
theorem C73_storage {T : TextOps} (hT : TextOk T) {e : Env} (he : e.text = T) {s : State} (hs : TextReachable T s) (hb : Sound e s) {a : Addr}
    (ha : a ≠ e.bank.splitCollector) (hm : 0 < e.month) (hr : 0 < s.params.tokenRate.toRat) {g : Nat} (hg : g * s.params.storageGbPrice < 2 ^ 63)
    (hf : ∀ o v, s.profiles.get a = some o → o.activeUntil = some v →
      bill s.params.tokenRate.toRat g s.params.storageGbPrice (part s.now v e.month) < 2 ^ 63) :
    Accepted (buyStorage e a g) s ↔ g ≠ 0 ∧ ∃ o v, s.profiles.get a = some o ∧ o.activeUntil = some v ∧ s.now < v ∧
      0 < bill s.params.tokenRate.toRat g s.params.storageGbPrice (part s.now v e.month) ∧
      bill s.params.tokenRate.toRat g s.params.storageGbPrice (part s.now v e.month) ≤ (balance s.bank a).main := by
  have fit := hs.fit hT
  unfold buyStorage
  rw [acc_errIf, acc_get, acc_orPanic, decide_eq_false_iff_not]
  refine and_congr_right fun _ => exists_congr fun o => ?_
  rw [exists_and_left]
  refine and_congr_right fun ho => ?_
  dsimp only
  rw [acc_errIf, Bool.not_eq_false', isActive_iff]
  constructor
  · rintro ⟨⟨v, hv, hlt⟩, h⟩
    refine ⟨v, hv, hlt, ?_⟩
    rw [acc_orPanic] at h
    obtain ⟨t, ht, h⟩ := h
    rw [hv, Option.getD_some] at ht
    obtain ⟨f1, f2⟩ := monthPart?_spec hm.ne' ht
    rw [acc_orPanic] at h
    obtain ⟨x, hx, h⟩ := h
    rw [acc_panicIf, decide_eq_false_iff_not, not_le, pay_iff hb ha (P := True)] at h
    · have hxe := bill_eq (f2 ▸ extraFee?_spec hx f1) hg hr.le (part_nonneg hm hlt.le) (hf o v ho hv)
      rw [← hxe]
      exact ⟨h.1, h.2.1.2.2⟩
    · intro t q
      exact iff_of_true (save_still (o := o) he (q.fit fit) (by rw [q.profiles]; exact ho) rfl rfl rfl) trivial
  · rintro ⟨v, hv, hlt, h0, hle⟩
    refine ⟨⟨v, hv, hlt⟩, ?_⟩
    rw [hv, Option.getD_some]
    obtain ⟨t, ht⟩ := monthPart?_some e hm.ne' s.now v
    obtain ⟨f1, f2⟩ := monthPart?_spec hm.ne' ht
    obtain ⟨x, hx⟩ := extraFee?_some s.params g (denom_of_pos hr) f1
    have hxe := bill_eq (f2 ▸ extraFee?_spec hx f1) hg hr.le (part_nonneg hm hlt.le) (hf o v ho hv)
    rw [acc_orPanic]
    refine ⟨t, ht, ?_⟩
    rw [acc_orPanic]
    refine ⟨x, hx, ?_⟩
    rw [acc_panicIf, decide_eq_false_iff_not, not_le, pay_iff hb ha (P := True)]
    · rw [hxe]
      exact ⟨h0, ⟨h0.le, hf o v ho hv, hle⟩, trivial⟩
    · intro t q
      exact iff_of_true (save_still (o := o) he (q.fit fit) (by rw [q.profiles]; exact ho) rfl rfl hv.symm) trivial

/-- **C73, traffic.** Extra traffic is sold exactly to running subscriptions that can pay the bill. -/
theorem C73_traffic {T : TextOps} (hT : TextOk T) {e : Env} (he : e.text = T) {s : State} (hs : TextReachable T s) (hb : Sound e s) {a : Addr}
    (ha : a ≠ e.bank.splitCollector) (hr : 0 < s.params.tokenRate.toRat) {g : Nat} (hg : g * s.params.vpnGbPrice < 2 ^ 63)
    (hf : bill s.params.tokenRate.toRat g s.params.vpnGbPrice 1 < 2 ^ 63) :
    Accepted (buyVpn e a g) s ↔ g ≠ 0 ∧ (∃ o v, s.profiles.get a = some o ∧ o.activeUntil = some v ∧ s.now < v) ∧
      bill s.params.tokenRate.toRat g s.params.vpnGbPrice 1 ≤ (balance s.bank a).main := by
  have fit := hs.fit hT
  unfold buyVpn
  rw [acc_errIf, acc_get, acc_orPanic, decide_eq_false_iff_not]
  refine and_congr_right fun _ => ?_
  have hprice : ∀ z x, s.params.tokenRate.mulInt? (wrap64 ((g : Int) * s.params.vpnGbPrice)) = some z → z.int64? = some x →
      x = bill s.params.tokenRate.toRat g s.params.vpnGbPrice 1 := by
    intro z x hz hx
    refine bill_eq ?_ hg hr.le (by norm_num) hf
    rw [plainFee?_spec hz hx, wrap64_eq, mul_one]
  have hb0 := bill_nonneg (g := g) (price := s.params.vpnGbPrice) (r := 1) hr.le (by norm_num)
  have hpay : ∀ o, s.profiles.get a = some o → ∀ x y z, (Accepted (paySplit e a x >>= fun _ => setProfile e a { o with vpnLimit := u64 (y + z) }) s ↔
      (0 ≤ x ∧ x < 2 ^ 63 ∧ x ≤ (balance s.bank a).main) ∧ True) := fun o ho x y z => pay_iff hb ha fun t q =>
    iff_of_true (save_still (o := o) he (q.fit fit) (by rw [q.profiles]; exact ho) rfl rfl rfl) trivial
  constructor
  · rintro ⟨o, ho, h⟩
    rw [acc_errIf, Bool.not_eq_false', isActive_iff, acc_orPanic] at h
    obtain ⟨⟨v, hv, hlt⟩, z, hz, h⟩ := h
    rw [acc_orPanic] at h
    obtain ⟨x, hx, h⟩ := h
    rw [hpay o ho] at h
    rw [← hprice z x hz hx]
    exact ⟨⟨o, v, ho, hv, hlt⟩, h.1.2.2⟩
  · rintro ⟨⟨o, v, ho, hv, hlt⟩, hle⟩
    refine ⟨o, ho, ?_⟩
    obtain ⟨z, hz, hz2, -⟩ := mulInt?_spec s.params.tokenRate (wrap64 ((g : Int) * s.params.vpnGbPrice)) (denom_of_pos hr)
    obtain ⟨x, hx⟩ := int64?_some z hz2.ne'
    rw [acc_errIf, Bool.not_eq_false', isActive_iff, acc_orPanic]
    refine ⟨⟨v, hv, hlt⟩, z, hz, ?_⟩
    rw [acc_orPanic]
    refine ⟨x, hx, ?_⟩
    rw [hpay o ho, hprice z x hz hx]
    exact ⟨⟨hb0, hf, hle⟩, trivial⟩

/-- **C73, messenger.** Extra messenger storage is sold exactly to those with a profile who can pay a bill of at least one uartr: for the
rest of the time of the storage they have, or for a month if they have none. -/
theorem C73_messenger {T : TextOps} (hT : TextOk T) {e : Env} (he : e.text = T) {s : State} (hs : TextReachable T s) (hb : Sound e s) {a : Addr}
    (ha : a ≠ e.bank.splitCollector) (hm : 0 < e.month) (hr : 0 < s.params.tokenRate.toRat) {g : Nat} (hg : g * s.params.storageGbPrice < 2 ^ 63)
    (hd : Datable (s.now + e.month))
    (hf : ∀ r, r = 1 ∨ (∃ o v, s.profiles.get a = some o ∧ o.extraImUntil = some v ∧ s.now < v ∧ r = part s.now v e.month) →
      bill s.params.tokenRate.toRat g s.params.storageGbPrice r < 2 ^ 63) :
    Accepted (buyIm e a g) s ↔ g ≠ 0 ∧ ∃ o r, s.profiles.get a = some o ∧
      (if o.imLimitExtra ≠ 0 ∧ ∃ v, o.extraImUntil = some v ∧ s.now < v then r = part s.now (o.extraImUntil.getD 0) e.month else r = 1) ∧
      0 < bill s.params.tokenRate.toRat g s.params.storageGbPrice r ∧
      bill s.params.tokenRate.toRat g s.params.storageGbPrice r ≤ (balance s.bank a).main := by
  have fit := hs.fit hT
  unfold buyIm
  rw [acc_errIf, acc_get, acc_orPanic, decide_eq_false_iff_not]
  refine and_congr_right fun _ => exists_congr fun o => ?_
  rw [exists_and_left]
  refine and_congr_right fun ho => ?_
  rw [acc_orPanic]
  by_cases hact : o.isImActive s.now = true
  · have hact' := isImActive_iff.1 hact
    obtain ⟨hl, v, hv, hlt⟩ := isImActive_iff.1 hact
    simp only [if_pos hact, if_pos hact']
    simp only [hv, Option.getD_some]
    have hb1 := hf (part s.now v e.month) (.inr ⟨o, v, ho, hv, hlt, rfl⟩)
    constructor
    · rintro ⟨t, ht, h⟩
      refine ⟨_, rfl, ?_⟩
      obtain ⟨f1, f2⟩ := monthPart?_spec hm.ne' ht
      rw [acc_orPanic] at h
      obtain ⟨x, hx, h⟩ := h
      rw [acc_panicIf, decide_eq_false_iff_not, not_le, pay_iff hb ha (P := True)] at h
      · rw [← bill_eq (f2 ▸ extraFee?_spec hx f1) hg hr.le (part_nonneg hm hlt.le) hb1]
        exact ⟨h.1, h.2.1.2.2⟩
      · intro t q
        exact iff_of_true (save_still (o := o) he (q.fit fit) (by rw [q.profiles]; exact ho) rfl rfl rfl) trivial
    · rintro ⟨r, rfl, h0, hle⟩
      obtain ⟨t, ht⟩ := monthPart?_some e hm.ne' s.now v
      obtain ⟨f1, f2⟩ := monthPart?_spec hm.ne' ht
      obtain ⟨x, hx⟩ := extraFee?_some s.params g (denom_of_pos hr) f1
      refine ⟨t, ht, ?_⟩
      rw [acc_orPanic]
      refine ⟨x, hx, ?_⟩
      rw [acc_panicIf, decide_eq_false_iff_not, not_le, pay_iff hb ha (P := True)]
      · rw [show x = _ from bill_eq (f2 ▸ extraFee?_spec hx f1) hg hr.le (part_nonneg hm hlt.le) hb1]
        exact ⟨h0, ⟨h0.le, hb1, hle⟩, trivial⟩
      · intro t q
        refine iff_of_true (save_still (o := o) he (q.fit fit) (by rw [q.profiles]; exact ho) rfl rfl ?_) trivial
        rfl
  · have hact' := fun h => hact (isImActive_iff.2 h)
    simp only [if_neg hact, if_neg hact']
    have hb1 := hf 1 (.inl rfl)
    have h11 : (⟨1, 1⟩ : Frac).toRat = 1 := by simp [Frac.toRat]
    have hxe : ∀ x, extraFee? s.params g ⟨1, 1⟩ = some x → x = bill s.params.tokenRate.toRat g s.params.storageGbPrice 1 := by
      intro x hx
      have := extraFee?_spec hx (by decide)
      rw [h11] at this
      exact bill_eq this hg hr.le (by norm_num) hb1
    have hrest : ∀ t, Same s t → (Accepted (scheduleRenewIm a (s.now + e.month) >>= fun _ =>
        setProfile e a { o with imLimitExtra := g, extraImUntil := some (s.now + e.month) }) t ↔ Datable (s.now + e.month) ∧ True) := fun t q =>
      sched_iff fun t' _ q' => iff_of_true (save_still (o := o) he (q'.fit (q.fit fit)) (by rw [q'.profiles, q.profiles]; exact ho) rfl rfl rfl) trivial
    constructor
    · rintro ⟨t, ht, h⟩
      injection ht with ht; subst ht
      refine ⟨1, rfl, ?_⟩
      rw [acc_orPanic] at h
      obtain ⟨x, hx, h⟩ := h
      rw [acc_panicIf, decide_eq_false_iff_not, not_le, pay_iff hb ha hrest, hxe x hx] at h
      exact ⟨h.1, h.2.1.2.2⟩
    · rintro ⟨r, rfl, h0, hle⟩
      obtain ⟨x, hx⟩ := extraFee?_some s.params g (denom_of_pos hr) (t := ⟨1, 1⟩) (by decide)
      refine ⟨_, rfl, ?_⟩
      rw [acc_orPanic]
      refine ⟨x, hx, ?_⟩
      rw [acc_panicIf, decide_eq_false_iff_not, not_le, pay_iff hb ha hrest, hxe x hx]
      exact ⟨h0, ⟨h0.le, hb1, hle⟩, hd, trivial⟩

/-- **C73, prolongation.** Messenger storage can be prolonged exactly if there is some on record and the owner can pay a bill of at least
one uartr. -/
theorem C73_prolong {T : TextOps} (hT : TextOk T) {e : Env} (he : e.text = T) {s : State} (hs : TextReachable T s) (hb : Sound e s) {a : Addr}
    (ha : a ≠ e.bank.splitCollector) (hr : 0 < s.params.tokenRate.toRat)
    (hf : ∀ o, s.profiles.get a = some o → o.imLimitExtra * s.params.storageGbPrice < 2 ^ 63 ∧ o.imLimitExtra < 2 ^ 63 ∧
      bill s.params.tokenRate.toRat o.imLimitExtra s.params.storageGbPrice 1 < 2 ^ 63) :
    Accepted (prolongIm e a) s ↔ ∃ o v, s.profiles.get a = some o ∧ o.imLimitExtra ≠ 0 ∧ o.extraImUntil = some v ∧
      Datable v ∧ Datable (v + e.month) ∧ 0 < bill s.params.tokenRate.toRat o.imLimitExtra s.params.storageGbPrice 1 ∧
      bill s.params.tokenRate.toRat o.imLimitExtra s.params.storageGbPrice 1 ≤ (balance s.bank a).main := by
  have fit := hs.fit hT
  unfold prolongIm
  rw [acc_get, acc_orPanic]
  refine exists_congr fun o => ?_
  rw [exists_and_left]
  refine and_congr_right fun ho => ?_
  obtain ⟨hg, hl, hb1⟩ := hf o ho
  have hb0 := bill_nonneg (g := o.imLimitExtra) (price := s.params.storageGbPrice) (r := 1) hr.le (by norm_num)
  have hprice : ∀ z x, s.params.tokenRate.mulInt? (wrap64 (wrap64 o.imLimitExtra * s.params.storageGbPrice)) = some z → z.int64? = some x →
      x = bill s.params.tokenRate.toRat o.imLimitExtra s.params.storageGbPrice 1 := by
    intro z x hz hx
    refine bill_eq ?_ hg hr.le (by norm_num) hb1
    rw [plainFee?_spec hz hx, wrap64_eq, mul_one]
    have h1 : wrap64 (o.imLimitExtra : Int) = o.imLimitExtra := by unfold wrap64; rw [Int.bmod_eq_of_le] <;> omega
    rw [h1]
  unfold prolong scheduleRenewIm
  simp only [M.bind_assoc, M.pure_bind]
  rw [acc_errIf, acc_get, acc_orPanic]
  have hpay : ∀ x, (Accepted (paySplit e a x >>= fun _ => onSched (.delete (o.extraImUntil.getD 0) refreshImHook [a]) >>= fun _ =>
      onSched (.schedule (o.extraImUntil.getD 0 + e.month) refreshImHook [a]) >>= fun _ =>
      setProfile e a { o with extraImUntil := some (o.extraImUntil.getD 0 + e.month) }) s ↔
      (0 ≤ x ∧ x < 2 ^ 63 ∧ x ≤ (balance s.bank a).main) ∧ Datable (o.extraImUntil.getD 0) ∧ Datable (o.extraImUntil.getD 0 + e.month) ∧ True) :=
    fun x => pay_iff hb ha fun t1 q1 => delete_iff fun t2 _ q2 => sched_iff fun t3 _ q3 =>
      iff_of_true (save_still (o := o) he (q3.fit (q2.fit (q1.fit fit))) (by rw [q3.profiles, q2.profiles, q1.profiles]; exact ho) rfl rfl rfl) trivial
  rw [Bool.or_eq_false_iff, decide_eq_false_iff_not]
  constructor
  · rintro ⟨⟨h0, h1⟩, z, hz, h⟩
    rw [acc_orPanic] at h
    obtain ⟨x, hx, h⟩ := h
    rw [acc_panicIf, decide_eq_false_iff_not, not_le, hpay, hprice z x hz hx] at h
    obtain ⟨v, hv⟩ := Option.isSome_iff_exists.1 (by simpa using h1)
    rw [hv, Option.getD_some] at h
    exact ⟨v, h0, hv, h.2.2.1, h.2.2.2.1, h.1, h.2.1.2.2⟩
  · rintro ⟨v, h0, hv, d1, d2, hpos, hle⟩
    refine ⟨⟨h0, by rw [hv]; rfl⟩, ?_⟩
    obtain ⟨z, hz, hz2, -⟩ := mulInt?_spec s.params.tokenRate (wrap64 (wrap64 o.imLimitExtra * s.params.storageGbPrice)) (denom_of_pos hr)
    obtain ⟨x, hx⟩ := int64?_some z hz2.ne'
    refine ⟨z, hz, ?_⟩
    rw [acc_orPanic]
    refine ⟨x, hx, ?_⟩
    rw [acc_panicIf, decide_eq_false_iff_not, not_le, hpay, hprice z x hz hx, hv, Option.getD_some]
    exact ⟨hpos, ⟨hb0, hb1, hle⟩, d1, d2, trivial⟩

/-- **C73, giving storage up.** A request to keep `g` gigabytes of storage is accepted exactly if the new limit (never less than what
everyone has) is lower than the old one and what is stored fits into it. -/
theorem C73_give_up {T : TextOps} (hT : TextOk T) {e : Env} (he : e.text = T) {s : State} (hs : TextReachable T s) {a : Addr} {g : Nat} :
    Accepted (giveStorageUp e a g) s ↔ g ≠ 0 ∧ ∃ o, s.profiles.get a = some o ∧
      o.storageCurrent ≤ max (s.params.baseStorageGb * 2 ^ 30) (g * 2 ^ 30) ∧ max (s.params.baseStorageGb * 2 ^ 30) (g * 2 ^ 30) < o.storageLimit := by
  have fit := hs.fit hT
  unfold giveStorageUp
  rw [acc_errIf, acc_get, acc_orPanic, decide_eq_false_iff_not]
  refine and_congr_right fun _ => exists_congr fun o => and_congr_right fun ho => ?_
  have hm : (if g * gb < s.params.baseStorageGb * gb then s.params.baseStorageGb * gb else g * gb) =
      max (s.params.baseStorageGb * 2 ^ 30) (g * 2 ^ 30) := by
    unfold gb
    split <;> omega
  simp only [hm]
  rw [acc_errIf, acc_errIf, decide_eq_false_iff_not, decide_eq_false_iff_not, not_lt, not_le]
  exact ⟨fun h => ⟨h.1, h.2.1⟩, fun h => ⟨h.1, h.2, save_still (o := o) he fit ho rfl rfl rfl⟩⟩

/-- **C73, giving messenger storage up.** A request to keep `g` gigabytes of extra messenger storage is accepted exactly if more than that
is running (and, to give all of it up, if the end on record is a date the schedule can express). -/
theorem C73_give_messenger_up {T : TextOps} (hT : TextOk T) {e : Env} (he : e.text = T) {s : State} (hs : TextReachable T s) {a : Addr} {g : Nat} :
    Accepted (giveImUp e a g) s ↔ ∃ o v, s.profiles.get a = some o ∧ o.extraImUntil = some v ∧ s.now < v ∧ g < o.imLimitExtra ∧
      (g = 0 → Datable v) := by
  have fit := hs.fit hT
  unfold giveImUp
  rw [acc_get, acc_orPanic]
  refine exists_congr fun o => ?_
  rw [exists_and_left]
  refine and_congr_right fun ho => ?_
  rw [acc_errIf, decide_eq_false_iff_not, not_le]
  have hact : g < (if o.isImActive s.now = true then o.imLimitExtra else 0) ↔ ∃ v, o.extraImUntil = some v ∧ s.now < v ∧ g < o.imLimitExtra := by
    by_cases hact : o.isImActive s.now = true
    · rw [if_pos hact]
      obtain ⟨-, v, hv, hlt⟩ := isImActive_iff.1 hact
      exact ⟨fun h => ⟨v, hv, hlt, h⟩, fun ⟨_, _, _, h⟩ => h⟩
    · rw [if_neg hact]
      refine ⟨fun h => absurd h (Nat.not_lt_zero _), fun ⟨v, hv, hlt, h⟩ => absurd (isImActive_iff.2 ⟨by omega, v, hv, hlt⟩) hact⟩
  rw [hact]
  by_cases hg : g = 0
  · rw [if_pos hg, delete_iff (P := True)]
    · constructor
      · rintro ⟨⟨v, hv, hlt, h⟩, hd, -⟩
        rw [hv, Option.getD_some] at hd
        exact ⟨v, hv, hlt, h, fun _ => hd⟩
      · rintro ⟨v, hv, hlt, h, hd⟩
        refine ⟨⟨v, hv, hlt, h⟩, ?_, trivial⟩
        rw [hv, Option.getD_some]
        exact hd hg
    · intro t _ q
      exact iff_of_true (save_still (o := o) he (q.fit fit) (by rw [q.profiles]; exact ho) rfl rfl rfl) trivial
  · rw [if_neg hg]
    exact ⟨fun ⟨⟨v, hv, hlt, h⟩, _⟩ => ⟨v, hv, hlt, h, fun h0 => absurd h0 hg⟩,
      fun ⟨v, hv, hlt, h, _⟩ => ⟨⟨v, hv, hlt, h⟩, save_still (o := o) he fit ho rfl rfl rfl⟩⟩

/-- **C73, reports.** What is stored, and the traffic used, is taken from exactly the addresses the parameters list for it, about
accounts with a profile. -/
theorem C73_reports {s : State} {b a : Addr} {v : Nat} :
    (Accepted (setStorageCurrent b a v) s ↔ b ∈ s.params.storageSigners ∧ ∃ o, s.profiles.get a = some o) ∧
    (Accepted (setVpnCurrent b a v) s ↔ b ∈ s.params.vpnSigners ∧ ∃ o, s.profiles.get a = some o) := by
  constructor
  · unfold setStorageCurrent
    rw [acc_get, acc_errIf, Bool.not_eq_false', List.contains_iff_mem]
    refine and_congr_right fun _ => ?_
    cases h : s.profiles.get a with
    | none => simp [Accepted, M.err]
    | some o => exact iff_of_true ⟨_, rfl⟩ ⟨o, rfl⟩
  · unfold setVpnCurrent
    rw [acc_get, acc_errIf, Bool.not_eq_false', List.contains_iff_mem]
    refine and_congr_right fun _ => ?_
    cases h : s.profiles.get a with
    | none => simp [Accepted, M.err]
    | some o => exact iff_of_true ⟨_, rfl⟩ ⟨o, rfl⟩

/-- **C73, the rate.** The exchange rate is taken from exactly the addresses the parameters list for it, and must be positive.  The stored
parameters are valid (`valid_params`). -/
theorem C73_rate {s : State} (hs : s.params.valid = true) {b : Addr} {v : Frac} :
    Accepted (setRate b v) s ↔ b ∈ s.params.tokenRateSigners ∧ 0 < v.toRat := by
  unfold setRate
  rw [acc_get, acc_errIf, acc_panicIf, Bool.not_eq_false', Bool.not_eq_false', List.contains_iff_mem]
  refine and_congr_right fun _ => ?_
  refine (and_iff_left ⟨_, rfl⟩).trans ?_
  have : ({ s.params with tokenRate := v } : Params).valid = true ↔ v.isPositive = true :=
    ⟨fun h => (valid_iff.1 h).2.2.2.2.1, valid_rate hs⟩
  rw [this]
  by_cases h : v.denom = 0
  · simp [Frac.isPositive, Frac.toRat, h]
  · exact Frac.isPositive_iff v h

/-! ### Names -/

/-- The rest of a save, once the nickname is settled, fails only if the referral module refuses. -/
theorem rest_iff {e : Env} {a : Addr} {old : Option Profile} {p : Profile} {s : State} :
    Accepted (updateCard a old p.cardNumber >>= fun c => storeProfile a { p with cardNumber := c } >>= fun _ => ensureAccount a >>= fun _ =>
      tellReferral e a old p) s ↔
    (p.isActive s.now = (old.map (·.isActive s.now)).getD false ∨ (e.setActive a (p.isActive s.now)).1 = .ok ()) := by
  have h1 : ∃ c t, updateCard a old p.cardNumber s = (.ok c, t) := by
    unfold updateCard
    cases old with
    | none =>
      dsimp only
      by_cases hc : p.cardNumber = 0
      · exact ⟨_, _, by simp only [hc]; rfl⟩
      · exact ⟨_, _, by simp only [Profile.when, hc, ne_eq, not_false_eq_true, decide_true, if_true]; rfl⟩
    | some o =>
      dsimp only
      by_cases hc : p.cardNumber = 0
      · exact ⟨_, _, by rw [if_neg (not_not.2 hc)]; rfl⟩
      · rw [if_pos hc]
        by_cases h1 : o.cardNumber = p.cardNumber
        · exact ⟨_, _, by simp only [Profile.when, h1, ne_eq, not_true_eq_false, decide_false]; rfl⟩
        · by_cases h2 : o.cardNumber = 0
          · exact ⟨_, _, by simp only [Profile.when, h2, ne_eq, not_true_eq_false, decide_false, Ne.symm hc, not_false_eq_true, decide_true, if_true]; rfl⟩
          · exact ⟨_, _, by simp only [Profile.when, h1, h2, ne_eq, not_false_eq_true, decide_true, if_true]; rfl⟩
  obtain ⟨c, t, h1⟩ := h1
  have f1 := updateCard_framed a old p.cardNumber s
  rw [h1] at f1
  have h2 : ∃ t', ensureAccount a { t with profiles := t.profiles.set a { p with cardNumber := c } } = (.ok (), t') := by
    unfold ensureAccount
    by_cases h : t.accounts.has a = true
    · exact ⟨_, by rw [M.bind_ok (M.get_apply _), if_pos h]; rfl⟩
    · exact ⟨_, by rw [M.bind_ok (M.get_apply _), if_neg h]; rfl⟩
  obtain ⟨t', h2⟩ := h2
  have f2 := ensureAccount_framed a { t with profiles := t.profiles.set a { p with cardNumber := c } }
  rw [h2] at f2
  have h3 : storeProfile a { p with cardNumber := c } t = (.ok (), { t with profiles := t.profiles.set a { p with cardNumber := c } }) := rfl
  have hnow : t'.now = s.now := f2.now.trans f1.now
  rw [← hnow]
  unfold Accepted
  rw [M.bind_ok h1, M.bind_ok h3, M.bind_ok h2]
  exact acc_tell

theorem when_iff {c : Bool} {m : M State Unit} {s : State} : Accepted (when c m) s ↔ (c = true → Accepted m s) := by
  unfold when
  cases c with
  | true => simp
  | false => exact iff_of_true ⟨s, rfl⟩ (by simp)

/-- Acceptable to the ledger of names: blank, or neither reserved nor in use by another account. -/
def Free (e : Env) (s : State) (a : Addr) (n : Text) : Prop :=
  e.text.trim n = [] ∨ (e.text.reserved (e.text.trim n) = false ∧ ∀ b, s.aliases.get (e.text.lower (e.text.trim n)) = some b → b = a)

theorem free_iff {e : Env} {s : State} {a : Addr} {n : Text} : nicknameOk e s a (e.text.trim n) = true ↔ Free e s a n := by
  unfold nicknameOk Free byNickname
  rw [Bool.or_eq_true, decide_eq_true_eq, Bool.and_eq_true, Bool.not_eq_true']
  refine or_congr Iff.rfl (and_congr Iff.rfl ?_)
  cases s.aliases.get (e.text.lower (e.text.trim n)) with
  | none => simp
  | some b => simp

/-- When a profile, with any nickname, can be saved. -/
theorem set_iff {e : Env} {s : State} {a : Addr} {p : Profile} (hb : s.profiles.get a ≠ none → Sound e s) :
    Accepted (setProfile e a p) s ↔ Free e s a p.nickname ∧
      (∀ o, s.profiles.get a = some o → o.nickname ≠ p.nickname → e.text.trim p.nickname ≠ [] → 1000000 ≤ (balance s.bank a).main) ∧
      (p.isActive s.now = ((s.profiles.get a).map (·.isActive s.now)).getD false ∨ (e.setActive a (p.isActive s.now)).1 = .ok ()) := by
  unfold setProfile
  rw [acc_get, acc_errIf, Bool.not_eq_false', free_iff]
  refine and_congr_right fun _ => ?_
  rw [acc_bind]
  have key : Accepted (updateAlias e a (s.profiles.get a) p.nickname) s ↔
      ∀ o, s.profiles.get a = some o → o.nickname ≠ p.nickname → e.text.trim p.nickname ≠ [] → 1000000 ≤ (balance s.bank a).main := by
    unfold updateAlias
    dsimp only
    cases ho : s.profiles.get a with
    | none =>
      dsimp only
      rw [when_iff]
      exact iff_of_true (fun _ => ⟨_, rfl⟩) (fun o h => by cases h)
    | some o =>
      dsimp only
      by_cases hn : o.nickname = p.nickname
      · rw [if_neg (not_not.2 hn)]
        exact iff_of_true ⟨s, rfl⟩ (fun o' h h' => by injection h with h; subst h; exact absurd hn h')
      · rw [if_pos hn, acc_bind]
        have hw : ∃ t, when (decide (o.nickname ≠ [])) (removeAlias e o.nickname) s = (.ok (), t) ∧ t.bank = s.bank := by
          unfold when removeAlias
          by_cases h : o.nickname = []
          · exact ⟨_, by simp only [h, ne_eq, not_true_eq_false, decide_false]; rfl, rfl⟩
          · exact ⟨{ s with aliases := s.aliases.erase (e.text.lower o.nickname) }, by simp only [h, ne_eq, not_false_eq_true, decide_true, if_true]; rfl, rfl⟩
        obtain ⟨t, h1, h2⟩ := hw
        have hct : Accepted (when (decide (e.text.trim p.nickname ≠ [])) (chargeFee e a 1000000 >>= fun _ => setAlias e (e.text.trim p.nickname) a)) t ↔
            (e.text.trim p.nickname ≠ [] → 1000000 ≤ (balance s.bank a).main) := by
          rw [when_iff, decide_eq_true_eq, acc_bind]
          refine imp_congr Iff.rfl ?_
          have hf := chargeFee_iff (e := e) (Same.sound h2 (hb (by rw [ho]; simp))) (a := a) (x := 1000000)
          rw [h2] at hf
          constructor
          · rintro ⟨⟨⟩, t', h3, -⟩
            exact (hf.1 ⟨t', h3⟩).2
          · intro hle
            obtain ⟨t', h3⟩ := hf.2 ⟨by norm_num, hle⟩
            exact ⟨(), t', h3, _, rfl⟩
        constructor
        · rintro ⟨⟨⟩, t', h3, h4⟩ o' ho' _ hne
          rw [h1] at h3
          injection h3 with _ h3; subst h3
          exact hct.1 h4 hne
        · intro h
          exact ⟨(), t, h1, hct.2 fun hne => h o rfl hn hne⟩
  rw [← key]
  constructor
  · rintro ⟨⟨⟩, t, h1, h2⟩
    have f := updateAlias_framed e a (s.profiles.get a) p.nickname s
    rw [h1] at f
    rw [rest_iff, f.now] at h2
    exact ⟨⟨t, h1⟩, h2⟩
  · rintro ⟨⟨t, h1⟩, h2⟩
    have f := updateAlias_framed e a (s.profiles.get a) p.nickname s
    rw [h1] at f
    refine ⟨(), t, h1, ?_⟩
    rw [rest_iff, f.now]
    exact h2

/-- The nickname asked for by a list of updates. -/
def nameAsked (o : Profile) (us : List Update) : Text := lastOf o.nickname (us.filterMap fun | .nickname b => some b | _ => none)

/-- **C73, updates.** The owner's update is accepted exactly if it asks for something, all nicknames in it are proper, the one that counts
is free, and a new one can be paid for: one ARTR. -/
theorem C73_update {e : Env} {s : State} (hb : Sound e s) {a : Addr} {us : List Update} :
    Accepted (updateProfile e a us) s ↔ us ≠ [] ∧ (∀ n, Update.nickname n ∈ us → properNickname n) ∧
      ∃ o, s.profiles.get a = some o ∧ Free e s a (nameAsked o us) ∧
        (nameAsked o us ≠ o.nickname → e.text.trim (nameAsked o us) ≠ [] → 1000000 ≤ (balance s.bank a).main) := by
  unfold updateProfile
  rw [acc_errIf, acc_errIf, acc_get, acc_orPanic]
  have h1 : us.isEmpty = false ↔ us ≠ [] := by cases us <;> simp
  have h2 : (!us.all Update.valid) = false ↔ ∀ n, Update.nickname n ∈ us → properNickname n := by
    rw [Bool.not_eq_false', List.all_eq_true]
    constructor
    · intro h n hn; exact (valid_proper n).1 (h _ hn)
    · intro h x hx
      cases x with
      | nickname n => exact (valid_proper n).2 (h n hx)
      | autoPay b => rfl
      | flags b => rfl
      | autoPayIm b => rfl
  rw [h1, h2]
  refine and_congr_right fun _ => and_congr_right fun _ => exists_congr fun o => and_congr_right fun ho => ?_
  have hf := fold_fields us o
  have hn : (us.foldl Update.apply o).nickname = nameAsked o us := by rw [hf]; rfl
  have hu : (us.foldl Update.apply o).isActive s.now = o.isActive s.now := by rw [hf]; rfl
  rw [set_iff fun _ => hb, hn, hu, ho]
  refine and_congr_right fun _ => ?_
  rw [and_iff_left (by left; rfl)]
  constructor
  · intro h hne; exact h o rfl (Ne.symm hne)
  · rintro h o' ho' hne; injection ho' with ho'; subst ho'; exact h (Ne.symm hne)

/-- **C73, accounts.** An account is created exactly if there is none yet, the creator can pay (unless creation is free or they are on the
list), the referral module accepts the newcomer, and the nickname sent along is free. -/
theorem C73_create {T : TextOps} (hT : TextOk T) {e : Env} {s : State} (hs : TextReachable T s) (hb : Sound e s) {c a r : Addr}
    {p : Option Profile} :
    Accepted (createAccount e c a r p) s ↔ s.accounts.get a = none ∧
      (0 < s.params.renamePrice → c ∉ s.params.creators → (s.params.renamePrice : Int) ≤ (balance s.bank c).main) ∧
      (e.appendChild r a).1 = .ok () ∧ Free e s a (p.getD {}).nickname ∧
      ((∃ v, (p.getD {}).activeUntil = some v ∧ s.now < v) → (e.setActive a true).1 = .ok ()) := by
  have fit := hs.fit hT
  unfold createAccount createWithProfile
  rw [acc_get, acc_errIf]
  have h0 : s.accounts.has a = false ↔ s.accounts.get a = none := by unfold KV.has; cases s.accounts.get a <;> simp
  rw [h0]
  refine and_congr_right fun hacc => ?_
  have hnop : s.profiles.get a = none := by
    cases ho : s.profiles.get a with
    | none => rfl
    | some o =>
      obtain ⟨n, hn, -⟩ := fit.ids.cards a o ho
      rw [hacc] at hn; cases hn
  rw [acc_bind]
  have hpay : Accepted (when (decide (0 < s.params.renamePrice) && !s.params.creators.contains c) (chargeFee e c s.params.renamePrice)) s ↔
      (0 < s.params.renamePrice → c ∉ s.params.creators → (s.params.renamePrice : Int) ≤ (balance s.bank c).main) := by
    rw [when_iff, chargeFee_iff hb]
    simp only [Bool.and_eq_true, decide_eq_true_eq, Bool.not_eq_true', List.contains_eq_mem, decide_eq_false_iff_not]
    constructor
    · intro h h1 h2; exact (h ⟨h1, h2⟩).2
    · rintro h ⟨h1, h2⟩; exact ⟨by omega, h h1 h2⟩
  rw [← hpay]
  have hrest : ∀ t, Same s t → (Accepted (newAccount a >>= fun n => onReferral (e.appendChild r a) >>= fun _ => M.get >>= fun s =>
      setProfile e a { p.getD {} with cardNumber := n ^^^ s.params.cardMagic }) t ↔ (e.appendChild r a).1 = .ok () ∧ Free e s a (p.getD {}).nickname ∧
      ((∃ v, (p.getD {}).activeUntil = some v ∧ s.now < v) → (e.setActive a true).1 = .ok ())) := by
    intro t q
    have h1 : newAccount a t = (.ok t.nextAcc, { t with accounts := t.accounts.set a t.nextAcc, nextAcc := t.nextAcc + 1 }) := rfl
    unfold Accepted
    rw [M.bind_ok h1]
    show Accepted _ _ ↔ _
    rw [acc_bind]
    have hset : ∀ c t', Same { t with accounts := t.accounts.set a t.nextAcc, nextAcc := t.nextAcc + 1 } t' →
        (Accepted (setProfile e a { p.getD {} with cardNumber := c }) t' ↔ Free e s a (p.getD {}).nickname ∧
          ((∃ v, (p.getD {}).activeUntil = some v ∧ s.now < v) → (e.setActive a true).1 = .ok ())) := by
      intro c t' q'
      have hp : t'.profiles.get a = none := by rw [q'.profiles]; show t.profiles.get a = none; rw [q.profiles]; exact hnop
      have ha' : t'.aliases = s.aliases := q'.aliases.trans q.aliases
      have hn' : t'.now = s.now := q'.now.trans q.now
      rw [set_iff fun h => absurd hp h, hp, hn']
      unfold Free
      rw [ha']
      refine and_congr Iff.rfl ?_
      have hact : ({ p.getD {} with cardNumber := c } : Profile).isActive s.now = (p.getD {}).isActive s.now := rfl
      rw [hact]
      have := isActive_iff (p := p.getD {}) (now := s.now)
      constructor
      · rintro ⟨-, h⟩ hv
        rw [this.2 hv] at h
        rcases h with h | h
        · simp at h
        · exact h
      · intro h
        refine ⟨fun o ho => (by cases ho), ?_⟩
        by_cases hv : (p.getD {}).isActive s.now = true
        · right; rw [hv]; exact h (this.1 hv)
        · left; simpa using hv
    constructor
    · rintro ⟨⟨⟩, t', h2, h3⟩
      have q' := onReferral_quiet (e.appendChild r a) { t with accounts := t.accounts.set a t.nextAcc, nextAcc := t.nextAcc + 1 }
      rw [h2] at q'
      rw [acc_get, hset _ t' q'] at h3
      exact ⟨congrArg Prod.fst h2, h3⟩
    · rintro ⟨h2, h3⟩
      obtain ⟨t', h2⟩ := (acc_referral (s := { t with accounts := t.accounts.set a t.nextAcc, nextAcc := t.nextAcc + 1 })).2 h2
      have q' := onReferral_quiet (e.appendChild r a) { t with accounts := t.accounts.set a t.nextAcc, nextAcc := t.nextAcc + 1 }
      rw [h2] at q'
      refine ⟨(), t', h2, ?_⟩
      rw [acc_get, hset _ t' q']
      exact h3
  have hq : ∀ t, when (decide (0 < s.params.renamePrice) && !s.params.creators.contains c) (chargeFee e c s.params.renamePrice) s = (.ok (), t) →
      Same s t := by
    intro t h
    have := Quiet.when (c := (decide (0 < s.params.renamePrice) && !s.params.creators.contains c)) (chargeFee_quiet e c s.params.renamePrice) s
    rw [h] at this
    exact this
  constructor
  · rintro ⟨⟨⟩, t, h1, h2⟩
    exact ⟨⟨t, h1⟩, (hrest t (hq t h1)).1 h2⟩
  · rintro ⟨⟨t, h1⟩, h2⟩
    exact ⟨(), t, h1, (hrest t (hq t h1)).2 h2⟩

/-- The money moved by a request: `x` uartr from one account to another, nothing else. -/
def Charged (s t : Bank.State) (a b : Addr) (x : Int) : Prop :=
  ∀ y d, (balance t y).amt d = (balance s y).amt d + ((if y = a then - (Coins.ofMain x).amt d else 0) + (if y = b then (Coins.ofMain x).amt d else 0))

theorem chargeFee_ok {e : Env} {a : Addr} {x : Int} {s t : State} {u : Unit} (h : chargeFee e a x s = (.ok u, t)) :
    Charged s.bank t.bank a e.bank.feeCollector x := by
  unfold chargeFee at h
  rw [M.panicIf_bind_ok] at h
  obtain ⟨b, hb, rfl⟩ := onBank_ok h.2
  exact (sendCoins_moved hb).1.bal

theorem updateCard_bank {a : Addr} {old : Option Profile} {c c' : Nat} {s t : State} (h2 : updateCard a old c s = (.ok c', t)) : t.bank = s.bank := by
  unfold updateCard at h2
  cases old with
  | some o =>
    dsimp only at h2
    split at h2
    · rw [M.bind_ok_iff] at h2
      obtain ⟨_, s3, h3, h4⟩ := h2
      obtain ⟨-, rfl⟩ := M.pure_ok.1 h4
      rcases when_ok h3 with ⟨-, h3⟩ | ⟨-, rfl⟩
      · rw [M.bind_ok_iff] at h3
        obtain ⟨_, s4, h5, h6⟩ := h3
        injection h6 with _ h6; subst h6
        rcases when_ok h5 with ⟨-, h5⟩ | ⟨-, rfl⟩
        · injection h5 with _ h5; subst h5; rfl
        · rfl
      · rfl
    · obtain ⟨-, rfl⟩ := M.pure_ok.1 h2; rfl
  | none =>
    dsimp only at h2
    rw [M.bind_ok_iff] at h2
    obtain ⟨_, s3, h3, h4⟩ := h2
    obtain ⟨-, rfl⟩ := M.pure_ok.1 h4
    rcases when_ok h3 with ⟨-, h3⟩ | ⟨-, rfl⟩
    · injection h3 with _ h3; subst h3; rfl
    · rfl

/-- The first save of the profile of an account. -/
theorem set_new {e : Env} {a : Addr} {p : Profile} {s t : State} {u : Unit} (h : setProfile e a p s = (.ok u, t)) (hp : s.profiles.get a = none)
    {n : Nat} (ha : s.accounts.get a = some n) :
    t.profiles = s.profiles.set a p ∧ t.accounts = s.accounts ∧ t.nextAcc = s.nextAcc := by
  unfold setProfile at h
  rw [M.get_bind_ok, M.errIf_bind_ok, M.bind_ok_iff, hp] at h
  obtain ⟨-, _, s1, h1, h⟩ := h
  obtain ⟨A, q1, -⟩ := updateAlias_ok h1
  rw [M.bind_ok_iff] at h
  obtain ⟨c, s2, h2, h⟩ := h
  obtain ⟨rfl, rfl⟩ := updateCard_ok h2 (by intro o ho; cases ho)
  rw [M.bind_ok_iff] at h
  obtain ⟨_, s3, h3, h⟩ := h
  injection h3 with _ h3; subst h3
  rw [M.bind_ok (ensureAccount_has (by exact has_of_get (show s1.accounts.get a = some n by rw [q1.accounts]; exact ha)))] at h
  have q : ∀ s2, tellReferral e a none p s2 = (.ok u, t) → Same s2 t := fun s2 h => by
    have q := tellReferral_quiet e a none p s2
    rw [h] at q
    exact q
  have q := q _ h
  exact ⟨by rw [q.profiles]; show s1.profiles.set a p = _; rw [q1.profiles], by rw [q.accounts]; exact q1.accounts, by rw [q.nextAcc]; exact q1.nextAcc⟩

/-- What saving a profile does to the balances. -/
theorem set_bank {e : Env} {a : Addr} {p : Profile} {s t : State} {u : Unit} (h : setProfile e a p s = (.ok u, t)) :
    if (∃ o, s.profiles.get a = some o ∧ o.nickname ≠ p.nickname) ∧ e.text.trim p.nickname ≠ [] then
      Charged s.bank t.bank a e.bank.feeCollector 1000000 else t.bank = s.bank := by
  unfold setProfile at h
  rw [M.get_bind_ok, M.errIf_bind_ok, M.bind_ok_iff] at h
  obtain ⟨-, _, s1, h1, h⟩ := h
  have hrest : t.bank = s1.bank := by
    rw [M.bind_ok_iff] at h
    obtain ⟨c, s2, h2, h⟩ := h
    have b2 : s2.bank = s1.bank := updateCard_bank h2
    rw [M.bind_ok_iff] at h
    obtain ⟨_, s3, h3, h⟩ := h
    injection h3 with _ h3; subst h3
    rw [M.bind_ok_iff] at h
    obtain ⟨_, s4, h4, h⟩ := h
    have b4 : s4.bank = s2.bank := by
      unfold ensureAccount at h4
      rw [M.get_bind_ok] at h4
      split at h4
      · obtain ⟨-, rfl⟩ := M.pure_ok.1 h4; rfl
      · rw [M.bind_ok_iff] at h4
        obtain ⟨n, s5, h5, h6⟩ := h4
        obtain ⟨-, rfl⟩ := M.pure_ok.1 h6
        injection h5 with _ h5; subst h5; rfl
    have b5 : t.bank = s4.bank := by
      unfold tellReferral at h
      rw [M.get_bind_ok] at h
      split at h
      · exact onReferral_ok h
      · obtain ⟨-, rfl⟩ := M.pure_ok.1 h; rfl
    rw [b5, b4, b2]
  rw [hrest]
  unfold updateAlias at h1
  cases ho : s.profiles.get a with
  | none =>
    rw [ho] at h1
    dsimp only at h1
    rw [if_neg (by rintro ⟨⟨o, h, -⟩, -⟩; cases h)]
    rcases when_ok h1 with ⟨-, h1⟩ | ⟨-, rfl⟩
    · injection h1 with _ h1; subst h1; rfl
    · rfl
  | some o =>
    rw [ho] at h1
    dsimp only at h1
    by_cases hn : o.nickname = p.nickname
    · rw [if_neg (not_not.2 hn)] at h1
      obtain ⟨-, rfl⟩ := M.pure_ok.1 h1
      rw [if_neg (by rintro ⟨⟨o', h, h'⟩, -⟩; injection h with h; subst h; exact h' hn)]
    · rw [if_pos hn, M.bind_ok_iff] at h1
      obtain ⟨_, s2, h2, h1⟩ := h1
      have b2 : s2.bank = s.bank := by
        rcases when_ok h2 with ⟨-, h2⟩ | ⟨-, rfl⟩
        · injection h2 with _ h2; subst h2; rfl
        · rfl
      rcases when_ok h1 with ⟨hc, h1⟩ | ⟨hc, rfl⟩
      · rw [if_pos ⟨⟨o, rfl, hn⟩, by simpa using hc⟩]
        rw [M.bind_ok_iff] at h1
        obtain ⟨_, s3, h3, h4⟩ := h1
        have := chargeFee_ok h3
        rw [b2] at this
        injection h4 with _ h4; subst h4
        exact this
      · rw [if_neg (by rintro ⟨-, h⟩; simp [h] at hc)]
        exact b2

/-- **C73, the price of a name.** An accepted update costs exactly one ARTR, paid to the collector of fees, if it changes the nickname to
one that is not blank, and nothing otherwise. -/
theorem C73_update_price {e : Env} {a : Addr} {us : List Update} {s t : State} {u : Unit} (h : updateProfile e a us s = (.ok u, t)) :
    ∃ o, s.profiles.get a = some o ∧ if nameAsked o us ≠ o.nickname ∧ e.text.trim (nameAsked o us) ≠ [] then
      Charged s.bank t.bank a e.bank.feeCollector 1000000 else t.bank = s.bank := by
  unfold updateProfile at h
  rw [M.errIf_bind_ok, M.errIf_bind_ok, M.get_bind_ok, M.orPanic_bind_ok] at h
  obtain ⟨-, -, o, ho, h⟩ := h
  refine ⟨o, ho, ?_⟩
  have hn : (us.foldl Update.apply o).nickname = nameAsked o us := by rw [fold_fields us o]; rfl
  have := set_bank h
  rw [hn] at this
  by_cases hc : nameAsked o us ≠ o.nickname ∧ e.text.trim (nameAsked o us) ≠ []
  · rw [if_pos hc]
    rw [if_pos ⟨⟨o, ho, Ne.symm hc.1⟩, hc.2⟩] at this
    exact this
  · rw [if_neg hc]
    rw [if_neg (by rintro ⟨⟨o', h1, h2⟩, h3⟩; rw [ho] at h1; injection h1 with h1; subst h1; exact hc ⟨Ne.symm h2, h3⟩)] at this
    exact this

/-- **C73, the price and the papers of an account.** The creator of an account pays the listed price to the collector of fees unless they
are on the list; the account gets the next number and a profile as sent, with the card number of that account. -/
theorem C73_created {T : TextOps} (hT : TextOk T) {e : Env} {s t : State} (hs : TextReachable T s) {c a r : Addr}
    {p : Option Profile} {u : Unit} (h : createAccount e c a r p s = (.ok u, t)) :
    (if 0 < s.params.renamePrice ∧ c ∉ s.params.creators then Charged s.bank t.bank c e.bank.feeCollector s.params.renamePrice else t.bank = s.bank) ∧
    t.accounts = s.accounts.set a s.nextAcc ∧ t.nextAcc = s.nextAcc + 1 ∧
    t.profiles = s.profiles.set a { p.getD {} with cardNumber := s.nextAcc ^^^ s.params.cardMagic } := by
  have fit := hs.fit hT
  unfold createAccount at h
  rw [M.get_bind_ok, M.errIf_bind_ok, M.bind_ok_iff] at h
  obtain ⟨h0, u1, s1, h1, h⟩ := h
  have hacc := has_false h0
  have hnop : s.profiles.get a = none := by
    cases ho : s.profiles.get a with
    | none => rfl
    | some o =>
      obtain ⟨n, hn, -⟩ := fit.ids.cards a o ho
      rw [hacc] at hn; cases hn
  have q1 := Quiet.when (c := (decide (0 < s.params.renamePrice) && !s.params.creators.contains c)) (chargeFee_quiet e c s.params.renamePrice) s
  rw [h1] at q1
  unfold createWithProfile at h
  rw [M.bind_ok_iff] at h
  obtain ⟨n, s1', h2, h⟩ := h
  simp only [newAccount, Prod.mk.injEq, Res.ok.injEq] at h2
  obtain ⟨rfl, rfl⟩ := h2
  rw [M.bind_ok_iff] at h
  obtain ⟨u3, s3, h3, h⟩ := h
  have h3' : onReferral (e.appendChild r a) (newAccount a s1).2 = (.ok u3, s3) := h3
  have q3 := onReferral_quiet (e.appendChild r a) (newAccount a s1).2
  rw [h3'] at q3
  have b3 : s3.bank = s1.bank := by
    have := onReferral_ok (u := u3) h3'
    exact this
  rw [M.get_bind_ok] at h
  have hp3 : s3.profiles.get a = none := by rw [q3.profiles]; show s1.profiles.get a = none; rw [q1.profiles]; exact hnop
  have ha3 : s3.accounts = s.accounts.set a s.nextAcc := by
    rw [q3.accounts]; show s1.accounts.set a s1.nextAcc = _; rw [q1.accounts, q1.nextAcc]
  obtain ⟨k1, k2, k3⟩ := set_new h hp3 (by rw [ha3]; exact KV.get_set_self ..)
  have b := set_bank h
  rw [if_neg (by rintro ⟨⟨o, ho, -⟩, -⟩; rw [hp3] at ho; cases ho), b3] at b
  refine ⟨?_, k2.trans ha3, ?_, ?_⟩
  · rw [b]
    rcases when_ok h1 with ⟨hc, h1⟩ | ⟨hc, rfl⟩
    · rw [if_pos (by simpa using hc)]
      exact chargeFee_ok h1
    · rw [if_neg (by simpa using hc)]
  · rw [k3, q3.nextAcc]; show s1.nextAcc + 1 = _; rw [q1.nextAcc]
  · rw [k1, q3.profiles, q3.params]
    show s1.profiles.set a { p.getD {} with cardNumber := s1.nextAcc ^^^ s1.params.cardMagic } = _
    rw [q1.profiles, q1.nextAcc, q1.params]

/-! ### Months -/

theorem tariffStorage?_iff {p : Params} {o : Profile} {g : Nat} :
    (tariffStorage? p o g).isNone = false ↔ (g ≠ 0 → p.baseStorageGb ≤ g ∧ o.storageCurrent ≤ g * 2 ^ 30) := by
  unfold tariffStorage? gb
  by_cases hg : g = 0
  · rw [if_pos hg]
    refine iff_of_true ?_ (fun h => absurd hg h)
    split <;> rfl
  · rw [if_neg hg]
    by_cases h1 : g < p.baseStorageGb
    · rw [if_pos h1]; exact iff_of_false (by simp) (fun h => by have := h hg; omega)
    · rw [if_neg h1]
      split
      · next h2 => exact iff_of_false (by simp) (fun h => by have := h hg; omega)
      · next h2 => exact iff_of_true rfl (fun _ => ⟨by omega, by omega⟩)

theorem tariffTotal?_some {e : Env} {s : State} {o : Profile} {b : Nat} (hm : e.month ≠ 0) (hr : 0 < s.params.tokenRate.toRat) {fee : Int}
    (h : calculateFee? (trunc (s.params.tokenRate.toRat * s.params.subscriptionPrice)) s.bank.params.fee.rate s.bank.params.fee.maxFee
      s.bank.params.fee.forProposer s.bank.params.fee.forCompany = some fee) :
    tariffTotal? e s o b = some (quote asInt64 s.params b o.storageLimit (restOf o s.now e.month), fee) := by
  have hd := denom_of_pos hr
  obtain ⟨z, hz, hz2, hz3⟩ := mulInt?_spec s.params.tokenRate s.params.subscriptionPrice hd
  have ht : tariff? s.params = some (trunc (s.params.tokenRate.toRat * s.params.subscriptionPrice)) := by
    unfold tariff?
    rw [hz]
    simp only [Option.bind_eq_bind, Option.bind_some]
    rw [bigInt?_trunc z hz2.ne', hz3]
    norm_cast
  obtain ⟨f', f1, f2, f3⟩ := storageFee?_spec e s.params s.now (running o s.now) b o.storageLimit hd hm
  have hx : ∃ q, tariffTotal? e s o b = some q := by
    unfold tariffTotal?
    simp only [ht, h, f1, bigInt?_trunc f' f2, Option.bind_eq_bind, Option.bind_some]
    exact ⟨_, rfl⟩
  obtain ⟨q, hq⟩ := hx
  obtain ⟨q1, q2⟩ := tariffTotal?_spec hm hq
  rw [h] at q2
  have q2 := Option.some.inj q2
  rw [hq]
  exact congrArg some (Prod.ext q1 q2.symm)

/-- **C73, months.** A month is sold exactly to those who have a profile, ask for storage that holds what is stored and is not less than
what everyone has, can pay the price quoted in C41 (which must exceed the transaction fee in it), are known to the referral module and, if banished,
taken back by it; the new end must be a date the schedule can express and a subscription that starts must be welcome to the referral
module. -/
theorem C73_month {T : TextOps} (hT : TextOk T) {e : Env} (he : e.text = T) {s : State} (hs : TextReachable T s) (hb : Sound e s) {a : Addr}
    (hm : 0 < e.month) (hr : 0 < s.params.tokenRate.toRat) {g : Nat} :
    Accepted (payTariff e a g false) s ↔ ∃ o fee, s.profiles.get a = some o ∧
      (g ≠ 0 → s.params.baseStorageGb ≤ g ∧ o.storageCurrent ≤ g * 2 ^ 30) ∧
      calculateFee? (trunc (s.params.tokenRate.toRat * s.params.subscriptionPrice)) s.bank.params.fee.rate s.bank.params.fee.maxFee
        s.bank.params.fee.forProposer s.bank.params.fee.forCompany = some fee ∧ 0 ≤ fee ∧
      fee < quote asInt64 s.params (storageAsked s.params o g) o.storageLimit (restOf o s.now e.month) ∧
      quote asInt64 s.params (storageAsked s.params o g) o.storageLimit (restOf o s.now e.month) ≤ (balance s.bank a).main ∧
      (e.banished a = some false ∨ e.banished a = some true ∧ (e.comeBack a).1 = .ok ()) ∧
      ((∃ v, o.activeUntil = some v ∧ s.now < v ∧ Datable (v + e.month)) ∨
        (¬ ∃ v, o.activeUntil = some v ∧ s.now < v) ∧ Datable (s.now + e.month) ∧ (e.setActive a true).1 = .ok ()) := by
  have fit := hs.fit hT
  unfold payTariff
  rw [acc_get, acc_orPanic]
  refine exists_congr fun o => ?_
  rw [exists_and_left]
  refine and_congr_right fun ho => ?_
  rw [acc_errIf, tariffStorage?_iff, exists_and_left]
  refine and_congr_right fun hg => ?_
  rw [storageAsked_eq (tariffStorage?_iff.2 hg)]
  generalize hQ : quote asInt64 s.params (storageAsked s.params o g) o.storageLimit (restOf o s.now e.month) = Q
  have hren : ∃ n, renewed? e s.params s.now o (storageAsked s.params o g) false = some n := by
    unfold renewed?
    dsimp only
    by_cases hact : o.isActive s.now = true
    · rw [if_neg (by rw [hact]; simp)]
      obtain ⟨v, hv, -⟩ := isActive_iff.1 hact
      rw [hv]
      exact ⟨_, rfl⟩
    · rw [if_pos ⟨by simpa using hact, rfl⟩]
      exact ⟨_, rfl⟩
  obtain ⟨n, hn⟩ := hren
  obtain ⟨n1, n2, n3⟩ := renewed_id hn
  have hend : ∀ t, Same s t → (Accepted (scheduleRenew a (n.activeUntil.getD 0) >>= fun _ => setProfile e a n) t ↔
      ((∃ v, o.activeUntil = some v ∧ s.now < v ∧ Datable (v + e.month)) ∨
        (¬ ∃ v, o.activeUntil = some v ∧ s.now < v) ∧ Datable (s.now + e.month) ∧ (e.setActive a true).1 = .ok ())) := by
    intro t q
    have hsave : ∀ t', t'.bank = t.bank → Same t t' → (Accepted (setProfile e a n) t' ↔
        (n.isActive s.now = o.isActive s.now ∨ (e.setActive a (n.isActive s.now)).1 = .ok ())) := by
      intro t' _ q'
      rw [save_iff he (q'.fit (q.fit fit)) (by rw [q'.profiles, q.profiles]; exact ho) n1 n2, q'.now, q.now]
    unfold scheduleRenew
    rw [sched_iff hsave]
    by_cases hact : o.isActive s.now = true
    · obtain ⟨v, hv, hlt⟩ := isActive_iff.1 hact
      rw [if_neg (by rw [hact]; simp), hv, Option.map_some] at n3
      have hna : n.isActive s.now = true := isActive_iff.2 ⟨_, n3, by omega⟩
      rw [n3, Option.getD_some, hna, hact]
      constructor
      · rintro ⟨hd, -⟩; exact .inl ⟨v, hv, hlt, hd⟩
      · rintro (⟨v', hv', -, hd⟩ | ⟨h, -⟩)
        · rw [hv] at hv'; injection hv' with hv'; subst hv'
          exact ⟨hd, .inl rfl⟩
        · exact absurd ⟨v, hv, hlt⟩ h
    · have hf : o.isActive s.now = false := by simpa using hact
      rw [if_pos ⟨hf, rfl⟩] at n3
      have hna : n.isActive s.now = true := isActive_iff.2 ⟨_, n3, by omega⟩
      rw [n3, Option.getD_some, hna, hf]
      have hno : ¬ ∃ v, o.activeUntil = some v ∧ s.now < v := fun h => hact (isActive_iff.2 h)
      constructor
      · rintro ⟨hd, h | h⟩
        · cases h
        · exact .inr ⟨hno, hd, h⟩
      · rintro (⟨v, hv, hlt, -⟩ | ⟨-, hd, h⟩)
        · exact absurd ⟨v, hv, hlt⟩ hno
        · exact ⟨hd, .inr h⟩
  have hcb : Accepted (comeBack e a) s ↔ (e.banished a = some false ∨ e.banished a = some true ∧ (e.comeBack a).1 = .ok ()) := by
    unfold comeBack
    cases hb : e.banished a with
    | none => simp [Accepted, M.err]
    | some b =>
      cases b with
      | false => exact iff_of_true ⟨s, rfl⟩ (.inl rfl)
      | true => rw [acc_referral]; simp
  have hcq : ∀ t, comeBack e a s = (.ok (), t) → Same s t := fun t h => by
    have := comeBack_quiet e a s; rw [h] at this; exact this
  have hpq : ∀ t t' x y, payTotal e a x y t = (.ok (), t') → Same t t' := fun t t' x y h => by
    have := payTotal_quiet e a x y t; rw [h] at this; exact this
  rw [acc_orPanic]
  constructor
  · rintro ⟨q, hq, h⟩
    obtain ⟨q1, q2⟩ := tariffTotal?_spec hm.ne' hq
    rw [hQ] at q1
    rw [acc_bind] at h
    obtain ⟨⟨⟩, s1, h1, h⟩ := h
    rw [acc_bind] at h
    obtain ⟨⟨⟩, s2, h2, h⟩ := h
    rw [acc_orPanic] at h
    obtain ⟨n', hn', h⟩ := h
    rw [hn] at hn'; injection hn' with hn'; subst hn'
    have hb1 : s1.bank = s.bank := comeBack_ok h1
    have hp := (payTotal_iff (Same.sound hb1 hb)).1 ⟨s2, h2⟩
    rw [hb1, q1] at hp
    exact ⟨q.2, q2, hp.1, hp.2.1, hp.2.2, hcb.1 ⟨s1, h1⟩, (hend s2 ((hcq s1 h1).trans (hpq _ _ _ _ h2))).1 h⟩
  · rintro ⟨fee, hfee, f0, f1, f2, hcb', h⟩
    have hq := tariffTotal?_some (o := o) (b := storageAsked s.params o g) hm.ne' hr hfee
    rw [hQ] at hq
    obtain ⟨s1, h1⟩ := hcb.2 hcb'
    have hb1 : s1.bank = s.bank := comeBack_ok h1
    obtain ⟨s2, h2⟩ := (payTotal_iff (Same.sound hb1 hb) (a := a) (total := Q) (fee := fee)).2 (by rw [hb1]; exact ⟨f0, f1, f2⟩)
    refine ⟨_, hq, ?_⟩
    rw [acc_bind]
    refine ⟨(), s1, h1, ?_⟩
    rw [acc_bind]
    refine ⟨(), s2, h2, ?_⟩
    rw [acc_orPanic]
    exact ⟨n, hn, (hend s2 ((hcq s1 h1).trans (hpq _ _ _ _ h2))).2 h⟩

/-! ### Examples -/

theorem nonneg_of_entries {b : Bank.State}
    (h : ∀ x ∈ b.balances.entries, 0 ≤ x.2.main ∧ 0 ≤ x.2.delegated ∧ 0 ≤ x.2.revoking ∧ 0 ≤ x.2.other) : ∀ a d, 0 ≤ (balance b a).amt d := by
  intro a d
  unfold balance
  cases hg : b.balances.get a with
  | none => cases d <;> decide
  | some c =>
    obtain ⟨h1, h2, h3, h4⟩ := h (a, c) (KV.mem_entries.2 hg)
    cases d
    · exact h1
    · exact h2
    · exact h3
    · exact h4

/-- A member with a paid month and five gigabytes of messenger storage, half a month later. -/
def memberState : State := Op.runAll exampleEnv (messenger ++ [halfMonth]) exampleState

theorem memberState_reachable : TextReachable ascii memberState :=
  runAll_text _ (by
    intro op h
    simp only [messenger, List.cons_append, List.nil_append, List.mem_cons, List.not_mem_nil, or_false] at h
    rcases h with h | h | h | h | h <;> subst h
    all_goals first | trivial | exact fun _ => rfl) (.start exampleStart)

theorem memberState_sound : Sound exampleEnv memberState where
  hooks := fun _ _ => rfl
  nonneg := nonneg_of_entries (by decide +kernel)
  fees := by decide +kernel
  rate := by decide +kernel
  low := by
    have : memberState.bank.params.fee.rate = ⟨3, 1000⟩ := by decide +kernel
    rw [this]; norm_num [Frac.toRat]

theorem memberState_rate : memberState.params.tokenRate.toRat = 100000 ∧ memberState.params.storageGbPrice = 10 ∧ memberState.params.vpnGbPrice = 10 := by
  have : memberState.params.tokenRate = ⟨100000, 1⟩ := by decide +kernel
  rw [this]
  exact ⟨by norm_num [Frac.toRat], by decide +kernel, by decide +kernel⟩

-- the theorem at work: traffic of 2 GB is sold, of 999797 GB (which the member cannot pay) is not
example : Accepted (buyVpn exampleEnv 7 2) memberState ∧ ¬ Accepted (buyVpn exampleEnv 7 999797) memberState := by
  obtain ⟨r1, -, r3⟩ := memberState_rate
  have hs : 7 ≠ exampleEnv.bank.splitCollector := by decide
  have hb : (balance memberState.bank 7).main = 999796000000 := by decide +kernel
  have ho : ∃ o v, memberState.profiles.get 7 = some o ∧ o.activeUntil = some v ∧ memberState.now < v := by
    have h : ∃ o, memberState.profiles.get 7 = some o ∧ o.isActive memberState.now = true := by
      have : (memberState.profiles.get 7).any (·.isActive memberState.now) = true := by decide +kernel
      simpa [Option.any_eq_true] using this
    obtain ⟨o, h1, h2⟩ := h
    obtain ⟨v, h3, h4⟩ := isActive_iff.1 h2
    exact ⟨o, v, h1, h3, h4⟩
  constructor
  · rw [C73_traffic ascii_ok rfl memberState_reachable memberState_sound hs (by rw [r1]; norm_num) (by rw [r3]; norm_num) (by rw [r1, r3]; decide +kernel)]
    exact ⟨by norm_num, ho, by rw [r1, r3, hb]; decide +kernel⟩
  · rw [C73_traffic ascii_ok rfl memberState_reachable memberState_sound hs (by rw [r1]; norm_num) (by rw [r3]; norm_num) (by rw [r1, r3]; decide +kernel)]
    rintro ⟨-, -, h⟩
    rw [r1, r3, hb] at h
    exact absurd h (by decide +kernel)

-- requests that are accepted and requests that are not: 2 and 0 GB of storage, 2 and 0 GB of messenger storage, prolongation, keeping 2 of 5
-- and 5 of 5 GB of messenger storage, a report by the signer and by another
example : (buyStorage exampleEnv 7 2 memberState).1 = .ok () ∧ (buyStorage exampleEnv 7 0 memberState).1 = .err ∧
    (buyIm exampleEnv 7 2 memberState).1 = .ok () ∧ (buyIm exampleEnv 7 0 memberState).1 = .err ∧
    (prolongIm exampleEnv 7 memberState).1 = .ok () ∧
    (giveImUp exampleEnv 7 2 memberState).1 = .ok () ∧ (giveImUp exampleEnv 7 5 memberState).1 = .err ∧
    (setVpnCurrent 8 7 1 memberState).1 = .ok () ∧ (setVpnCurrent 7 7 1 memberState).1 = .err ∧
    (payTariff exampleEnv 7 0 false memberState).1 = .ok () ∧ (payTariff exampleEnv 7 1 false memberState).1 = .err := by decide +kernel

-- names: a new one costs one ARTR, a blank one nothing; a short one, one with a dot and a reserved one are refused
example : (balance (updateProfile exampleEnv 7 [.nickname bob] memberState).2.bank 7).main = 999796000000 - 1000000 ∧
    (updateProfile exampleEnv 7 [.nickname bob] memberState).1 = .ok () ∧
    (balance (updateProfile exampleEnv 7 [.nickname []] memberState).2.bank 7).main = 999796000000 ∧
    (updateProfile exampleEnv 7 [.nickname []] memberState).1 = .ok () ∧
    (updateProfile exampleEnv 7 [.nickname [98, 111]] memberState).1 = .err ∧
    (updateProfile exampleEnv 7 [.nickname [98, 111, 46, 98]] memberState).1 = .err ∧
    (updateProfile exampleEnv 7 [.nickname [97, 114, 116, 114, 45, 49]] memberState).1 = .err ∧
    (updateProfile exampleEnv 7 [] memberState).1 = .err := by decide +kernel

-- accounts: a new one, and one that is there already
example : (createAccount exampleEnv 5 6 7 none memberState).1 = .ok () ∧ (createAccount exampleEnv 5 7 5 none memberState).1 = .err := by decide +kernel

end Verif.Profile
