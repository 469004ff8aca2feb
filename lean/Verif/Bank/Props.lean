import Verif.Bank.Lemmas
import Verif.Util.Props

/-! Properties C07 – C11 and the bank part of C06. -/
namespace Verif.Bank
open Verif.Util

/-- Operations of the bank module, as transactions of the chain or calls by other modules. -/
inductive Op where
  | send (m : MsgSend)
  | burn (a : Addr) (amount : Nat)
  | multi (ins outs : List InOut)
  | payFee (a : Addr) (c : Coins)
  | mint (moduleAcc : Addr) (minter : Bool) (c : Coins)
  | burnModule (moduleAcc : Addr) (burner : Bool) (c : Coins)

/-- The computation an operation performs. -/
def Op.run (e : Env) : Op → M State Unit
  | .send m => Bank.send e m
  | .burn a n => Bank.burn e a n
  | .multi i o => inputOutputCoins e i o
  | .payFee a c => do let _ ← payTxFee e a c
  | .mint a mi c => mintCoins e a mi c
  | .burnModule a bu c => burnCoins e a bu c

/-- All hooks succeed. -/
def HooksOk (e : Env) : Prop := ∀ s a, e.hook s a = .ok ()

/-! ### C07 -/

/-- C07: whatever an operation does – succeed, fail half-way, panic – it never leaves a negative balance. -/
theorem C07_never_negative (e : Env) (op : Op) (s : State) (h : ∀ a d, 0 ≤ (balance s a).amt d) :
    (∀ a d, 0 ≤ (balance (op.run e s).2 a).amt d) ∧ (∀ a d, 0 ≤ (balance (M.tx (op.run e) s) a).amt d) := by
  have key : M.Preserves NonNeg (op.run e) := by
    cases op with
    | send m => exact send_nonneg e m
    | burn a n => exact burn_nonneg e a n
    | multi i o => exact inputOutputCoins_nonneg e i o
    | payFee a c => exact .bind (payTxFee_nonneg e a c) fun _ => .pure _
    | mint a mi c => exact mintCoins_nonneg e a mi c
    | burnModule a bu c => exact burnCoins_nonneg e a bu c
  exact ⟨key s h, key.tx h⟩

/-- C07: histories. -/
theorem C07_never_negative_history (ops : List (Env × Op)) (s : State) (h : ∀ a d, 0 ≤ (balance s a).amt d) :
    ∀ a d, 0 ≤ (balance (ops.foldl (fun s p => M.tx (p.2.run p.1) s) s) a).amt d := by
  induction ops generalizing s with
  | nil => exact h
  | cons p t ih => exact ih _ (C07_never_negative p.1 p.2 s h).2

/-- C07: spending more than the balance, in any denomination, is refused with no effect – by transfers, ... -/
theorem C07_overspend_refused (e : Env) (src dst : Addr) (c : Coins) (s : State) (d : Denom)
    (h : (balance s src).amt d < c.amt d) :
    (sendCoins e src dst c s).1.isOk = false ∧ (sendCoins e src dst c s).2 = s ∧
    (burnAccCoins e src c s).1.isOk = false ∧ (burnAccCoins e src c s).2 = s ∧
    (subtractCoins e src c s).1.isOk = false ∧ (subtractCoins e src c s).2 = s := by
  have key : subtractCoins e src c s = (.err, s) := by
    rw [subtractCoins_apply, if_neg]
    intro hh
    simp only [Bool.and_eq_true] at hh
    have := (Coins.valid_iff _).1 hh.2 d
    simp at this; omega
  have k1 : sendCoins e src dst c s = (.err, s) := M.bind_err key
  have k2 : burnAccCoins e src c s = (.err, s) := M.bind_err key
  simp [k1, k2, key]

/-- C07: ... by multi-party payments (every input), and the whole payment is undone. -/
theorem C07_overspend_multi_refused (e : Env) (ins outs : List InOut) (s : State) (a : Addr) (d : Denom)
    (h : (balance s a).amt d < (ins.map (fun i => if a = i.addr then i.coins.amt d else 0)).sum)
    (hs : ∀ a d, 0 ≤ (balance s a).amt d) :
    M.succeeds (inputOutputCoins e ins outs) s = false ∧ M.tx (inputOutputCoins e ins outs) s = s := by
  rcases M.tx_cases (inputOutputCoins e ins outs) s with ⟨u, hu⟩ | h2
  · exfalso
    unfold inputOutputCoins at hu
    rw [M.bind_ok_iff] at hu
    obtain ⟨_, s1, h1, h2⟩ := hu
    obtain ⟨-, rfl⟩ := M.errIf_ok_iff.1 h1
    rw [M.bind_ok_iff] at h2
    obtain ⟨_, s2, h3, h4⟩ := h2
    have hn : NonNeg s2 := by
      have := (M.Preserves.forEach (P := NonNeg) (l := ins) (fun i _ => subtractCoins_nonneg e i.addr i.coins)) s1 hs
      rw [h3] at this; exact this
    have := (forEach_subtract h3).1.bal a d
    have := hn a d
    omega
  · exact h2

/-! ### C08 -/

/-- C08: a successful transfer moves the amount and the fee, and nothing else. -/
theorem C08_transfer_exact (e : Env) (m : MsgSend) (s t : State) (h : send e m s = (.ok (), t)) :
    ∃ fee : Int, 0 ≤ fee ∧
      calculateFee? m.amount.main s.params.fee.rate s.params.fee.maxFee s.params.fee.forProposer
        s.params.fee.forCompany = some fee ∧
      (∀ x d, (balance t x).amt d = (balance s x).amt d
        - (if x = m.src then m.amount.amt d + (Coins.ofMain fee).amt d else 0)
        + (if x = m.dst then m.amount.amt d else 0)
        + (if x = e.splitCollector then (Coins.ofMain fee).amt d else 0)) ∧
      t.supply = s.supply ∧ t.params = s.params := by
  unfold send at h
  simp only [M.bind_ok_iff, M.errIf_ok_iff, M.panicIf_ok_iff, M.get_apply, Prod.mk.injEq, Res.ok.injEq] at h
  obtain ⟨_, _, ⟨hv, rfl⟩, _, _, ⟨hne, rfl⟩, _, _, ⟨-, rfl⟩, _, _, ⟨-, rfl⟩, _, _, ⟨hd, rfl⟩, b, s6, ⟨rfl, rfl⟩,
    _, _, ⟨-, rfl⟩, _, _, ⟨-, rfl⟩, _, _, ⟨-, rfl⟩, fee, s10, hf, hs⟩ := h
  obtain ⟨m1, -, f1, f2, -⟩ := payTxFee_moved hf
  obtain ⟨m2, -, -, -⟩ := sendCoins_moved hs
  simp only [decide_eq_false_iff_not] at hd
  have hmain : m.amount.main ≠ 0 := by
    intro h0
    have : m.amount.isEmpty = true := by
      rw [Coins.isEmpty_iff]
      rcases hm : m.amount with ⟨a, b, c, d⟩
      rw [hm] at h0 hd
      simp only [ne_eq, not_or, not_not] at hd h0
      obtain ⟨h1, h2, h3⟩ := hd
      subst h0 h1 h2 h3; rfl
    rw [this] at hne; cases hne
  refine ⟨fee, f2, ?_, ?_, m2.supply.trans m1.supply, m2.params.trans m1.params⟩
  · unfold txFeeOf? at f1
    rw [if_neg hd, if_neg hmain] at f1
    rcases hc : calculateFee? m.amount.main s10.params.fee.rate s10.params.fee.maxFee s10.params.fee.forProposer
        s10.params.fee.forCompany with _ | f
    all_goals
      rw [m1.params] at hc
      rw [hc] at f1 ⊢
      simp at f1
    · exact congrArg some f1.2
  · intro x d
    have h1 := m1.bal x d
    have h2 := m2.bal x d
    rw [h2, h1]
    split <;> split <;> split <;> omega

/-- C08: with accepted parameters the fee is the one of C03: the greatest multiple of the split granularity within the
rate and the cap (rate at most 1, as governance ensures). -/
theorem C08_transfer_fee_spec (e : Env) (m : MsgSend) (s t : State) (h : send e m s = (.ok (), t))
    (hv : validateFeeParams? s.params.fee = some true) (hr : s.params.fee.rate.denom ≠ 0)
    (hle : s.params.fee.rate.toRat ≤ 1) :
    ∃ fee l : Int, IsGranularity s.params.fee.forProposer s.params.fee.forCompany l ∧
      AllowedFee s.params.fee l m.amount.main fee ∧
      (∀ f, AllowedFee s.params.fee l m.amount.main f → f ≤ fee) ∧
      (∀ x d, (balance t x).amt d = (balance s x).amt d
        - (if x = m.src then m.amount.amt d + (Coins.ofMain fee).amt d else 0)
        + (if x = m.dst then m.amount.amt d else 0)
        + (if x = e.splitCollector then (Coins.ofMain fee).amt d else 0)) := by
  obtain ⟨fee, f0, f1, f2, -, -⟩ := C08_transfer_exact e m s t h
  have hpos : 0 ≤ m.amount.main := by
    unfold send at h
    rw [M.bind_ok_iff] at h
    obtain ⟨_, _, h1, -⟩ := h
    have := (M.errIf_ok_iff.1 h1).1
    simp only [Bool.not_eq_false'] at this
    exact (Coins.valid_iff _).1 this .main
  have hlt : m.amount.main < 2 ^ 63 := by
    by_contra hh
    rw [C03_huge_amount_refused s.params.fee m.amount.main (not_lt.1 hh)] at f1
    cases f1
  obtain ⟨fee', l, g1, g2, g3, g4, -, -⟩ := C03_fee_within_amount_partial s.params.fee m.amount.main hv hr hle hpos hlt
  rw [f1] at g2; cases g2
  exact ⟨fee, l, g1, g3, g4, f2⟩

/-! ### C09 -/

theorem sendCoins_succeeds {e : Env} (he : HooksOk e) {src dst : Addr} {c : Coins} {s : State} (hs : NonNeg s) :
    (sendCoins e src dst c s).1.isOk = true ↔ ∀ d, 0 ≤ c.amt d ∧ c.amt d ≤ (balance s src).amt d := by
  unfold sendCoins
  rw [M.bind_apply, subtractCoins_apply]
  by_cases hc : c.valid = true
  · by_cases hb : ((balance s src).sub c).valid = true
    · simp only [hc, hb, Bool.and_self, if_true, he _ _]
      rw [addCoins_apply]
      have hn : NonNeg (withBalance s src ((balance s src).sub c)) := by
        intro x d; rw [balance_withBalance]; split
        · exact (Coins.valid_iff _).1 hb d
        · exact hs x d
      have hadd : ((balance (withBalance s src ((balance s src).sub c)) dst).add c).valid = true := by
        rw [Coins.valid_iff]; intro d
        have h1 := hn dst d
        have h2 := (Coins.valid_iff _).1 hc d
        simp; omega
      simp only [hc, hadd, if_true, he _ _, Res.isOk_ok, true_iff]
      intro d
      have h1 := (Coins.valid_iff _).1 hc d
      have h2 := (Coins.valid_iff _).1 hb d
      simp at h2; omega
    · simp only [hc, hb]
      refine ⟨fun h => by simp at h, fun h => absurd ?_ hb⟩
      rw [Coins.valid_iff]; intro d
      have := h d
      simp; omega
  · simp only [hc]
    refine ⟨fun h => by simp at h, fun h => absurd ?_ hc⟩
    rw [Coins.valid_iff]; intro d; exact (h d).1

theorem payTxFee_run {e : Env} {a : Addr} {c : Coins} {s : State} {fee : Int} (h : txFeeOf? s.params c = some fee) :
    payTxFee e a c s = if fee = 0 then (.ok 0, s) else
      (sendCoins e a e.splitCollector (Coins.ofMain fee) >>= fun _ => pure fee) s := by
  unfold payTxFee
  rw [M.bind_apply, M.get_apply]
  simp only [h]
  rw [M.bind_apply, M.orPanic_some]
  simp only
  split <;> rfl

/-- C09: with accepted parameters, hooks that succeed and a sender other than the fee collector itself (a module
account, which cannot sign), a transfer goes through iff the published conditions hold. -/
theorem C09_transfer_iff (e : Env) (he : HooksOk e) (m : MsgSend) (s : State)
    (hs : ∀ a d, 0 ≤ (balance s a).amt d)
    (hv : validateFeeParams? s.params.fee = some true) (hr : s.params.fee.rate.denom ≠ 0)
    (hle : s.params.fee.rate.toRat ≤ 1) (hmin : 0 ≤ s.params.minSend) (hsrc : m.src ≠ e.splitCollector) :
    M.succeeds (send e m) s = true ↔
      e.accExists m.dst = true ∧ e.blockedAddr m.dst = false ∧
      (m.amount.delegated = 0 ∧ m.amount.revoking = 0 ∧ m.amount.other = 0) ∧
      0 < m.amount.main ∧ m.amount.main < 2 ^ 63 ∧ s.params.minSend ≤ m.amount.main ∧
      m.src ∉ s.params.blockedSenders ∧
      ∃ fee l : Int, IsGranularity s.params.fee.forProposer s.params.fee.forCompany l ∧
        AllowedFee s.params.fee l m.amount.main fee ∧
        (∀ f, AllowedFee s.params.fee l m.amount.main f → f ≤ fee) ∧
        m.amount.main + fee ≤ (balance s m.src).main := by
  constructor
  · intro h
    obtain ⟨⟨⟩, ht⟩ := Res.isOk_iff.1 h
    have hrun : send e m s = (.ok (), (send e m s).2) := Prod.ext ht rfl
    obtain ⟨fee, l, g1, g2, g3, g4⟩ := C08_transfer_fee_spec e m s _ hrun hv hr hle
    obtain ⟨fee', -, c1, -⟩ := C08_transfer_exact e m s _ hrun
    have hlt : m.amount.main < 2 ^ 63 := by
      by_contra hh
      rw [C03_huge_amount_refused s.params.fee m.amount.main (not_lt.1 hh)] at c1
      cases c1
    generalize (send e m s).2 = t at *
    have hn : NonNeg t := by have := send_nonneg e m s hs; rw [hrun] at this; exact this
    unfold send at hrun
    simp only [M.bind_ok_iff, M.errIf_ok_iff, M.panicIf_ok_iff, M.get_apply, Prod.mk.injEq, Res.ok.injEq] at hrun
    obtain ⟨_, _, ⟨hval, rfl⟩, _, _, ⟨hne, rfl⟩, _, _, ⟨k1, rfl⟩, _, _, ⟨k2, rfl⟩, _, _, ⟨hd, rfl⟩, b, s6,
      ⟨rfl, rfl⟩, _, _, ⟨-, rfl⟩, _, _, ⟨k4, rfl⟩, _, _, ⟨k5, rfl⟩, fee2, s10, hf, hs2⟩ := hrun
    simp only [decide_eq_false_iff_not, ne_eq, not_or, not_not] at hd
    have hmain : 0 < m.amount.main := by
      simp only [Bool.not_eq_false'] at hval
      have h1 := (Coins.valid_iff _).1 hval .main
      have h1 : 0 ≤ m.amount.main := h1
      rcases Int.lt_or_eq_of_le h1 with h | h
      · exact h
      · exfalso
        have : m.amount.isEmpty = true := by
          rw [Coins.isEmpty_iff]
          rcases hm : m.amount with ⟨a, b, c, d⟩
          rw [hm] at h hd
          obtain ⟨h1, h2, h3⟩ := hd
          simp only at h h1 h2 h3
          subst h h1 h2 h3; rfl
        rw [this] at hne; cases hne
    refine ⟨by simpa using k1, by simpa using k2, hd, hmain, hlt, ?_, by simpa using k5, fee, l, g1, g2, g3, ?_⟩
    · unfold belowMin at k4
      simp at k4
      by_contra hh
      have := k4 (not_le.1 hh)
      omega
    · -- the amount is taken from what is left after the fee
      obtain ⟨m1, -, f1, f2, -⟩ := payTxFee_moved hf
      obtain ⟨-, -, -, l2⟩ := sendCoins_moved hs2
      have h1 := m1.bal m.src .main
      have h2 := l2 .main
      have hfee : fee2 = fee := by
        have hc := C08_transfer_exact e m _ _ (Prod.ext ht rfl : send e m _ = (.ok (), _))
        unfold txFeeOf? at f1
        rw [if_neg (by simp [hd]), if_neg (by omega)] at f1
        obtain ⟨fee'', l'', q1, q2, q3, q4, q5, -⟩ := C03_fee_within_amount_partial _ m.amount.main hv hr hle
          (le_of_lt hmain) hlt
        rw [q2] at f1
        simp only [Option.bind_eq_bind, Option.bind_some] at f1
        rw [if_neg (by omega)] at f1
        cases f1
        have hl : l'' = l := le_antisymm (q1.2.2.2 l g1.1 g1.2.1 g1.2.2.1) (g1.2.2.2 l'' q1.1 q1.2.1 q1.2.2.1)
        subst hl
        exact le_antisymm (g3 _ q3) (q4 _ g2)
      subst hfee
      rw [if_pos rfl, if_neg hsrc] at h1
      rw [Coins.amt_ofMain] at h1
      simp only [if_true] at h1
      have e1 : m.amount.amt .main = m.amount.main := rfl
      have e2 : ∀ s, (balance s m.src).amt .main = (balance s m.src).main := fun _ => rfl
      rw [e2] at h1 h2
      rw [e2] at h1
      omega
  · rintro ⟨k1, k2, ⟨d1, d2, d3⟩, hpos, hlt, hm, hb, fee, l, g1, g2, g3, hbal⟩
    have hfee0 : 0 ≤ fee := by
      apply g3
      refine ⟨Int.dvd_zero l, ?_, ?_⟩
      · obtain ⟨v1, -⟩ := validate_accept hv
        have : 0 ≤ s.params.fee.rate.toRat := by
          by_contra hh
          have := (Frac.isNegative_iff _ hr).2 (not_le.1 hh)
          rw [v1] at this; cases this
        have h2 : (0 : ℚ) ≤ (m.amount.main : ℚ) := by exact_mod_cast hpos.le
        push_cast
        exact mul_nonneg this h2
      · intro _; exact (validate_accept hv).2.1
    have hval : m.amount.valid = true := by
      unfold Coins.valid; simp [d1, d2, d3]; omega
    have hne : m.amount.isEmpty = false := by
      cases h : m.amount.isEmpty
      · rfl
      · rw [Coins.isEmpty_iff] at h; rw [h] at hpos; simp at hpos
    have hd : decide (m.amount.delegated ≠ 0 ∨ m.amount.revoking ≠ 0 ∨ m.amount.other ≠ 0) = false := by
      simp [d1, d2, d3]
    have hbm : belowMin s.params m.amount = false := by unfold belowMin; simp; omega
    have hbs : s.params.blockedSenders.contains m.src = false := by
      simpa using hb
    have hfee : txFeeOf? s.params m.amount = some fee := by
      unfold txFeeOf?
      rw [if_neg (by simp [d1, d2, d3]), if_neg (by omega)]
      obtain ⟨fee', l', q1, q2, q3, q4, q5, -⟩ := C03_fee_within_amount_partial _ m.amount.main hv hr hle
        (le_of_lt hpos) hlt
      rw [q2]
      have hl : l' = l := le_antisymm (q1.2.2.2 l g1.1 g1.2.1 g1.2.2.1) (g1.2.2.2 l' q1.1 q1.2.1 q1.2.2.1)
      subst hl
      have : fee' = fee := le_antisymm (g3 _ q3) (q4 _ g2)
      subst this
      simp; omega
    unfold M.succeeds send
    simp only [M.bind_apply, M.get_apply, hval, hne, hd, k1, k2, hbm, hbs, Bool.not_true, M.errIf_false,
      show decide (s.params.minSend < 0) = false by simpa using hmin, M.panicIf_false]
    rw [payTxFee_run hfee]
    have hcoins : ∀ d, m.amount.amt d = if d = .main then m.amount.main else 0 := by
      intro d; cases d <;> simp [Coins.amt, d1, d2, d3]
    by_cases hf0 : fee = 0
    · -- no fee
      rw [if_pos hf0]
      simp only
      rw [sendCoins_succeeds he hs]
      intro d
      rw [hcoins]
      split
      · rename_i hdm; subst hdm
        have e2 : (balance s m.src).amt .main = (balance s m.src).main := rfl
        rw [e2]; omega
      · exact ⟨le_refl _, hs _ _⟩
    · rw [if_neg hf0]
      have hok : (sendCoins e m.src e.splitCollector (Coins.ofMain fee) s).1.isOk = true := by
        rw [sendCoins_succeeds he hs]
        intro d
        rw [Coins.amt_ofMain]
        split
        · rename_i hdm; subst hdm
          have e2 : (balance s m.src).amt .main = (balance s m.src).main := rfl
          rw [e2]; omega
        · exact ⟨le_refl _, hs _ _⟩
      obtain ⟨⟨⟩, hok⟩ := Res.isOk_iff.1 hok
      have hrun : sendCoins e m.src e.splitCollector (Coins.ofMain fee) s
          = (.ok (), (sendCoins e m.src e.splitCollector (Coins.ofMain fee) s).2) := Prod.ext hok rfl
      have hn1 := sendCoins_nonneg e m.src e.splitCollector (Coins.ofMain fee) s hs
      have hmv := (sendCoins_moved hrun).1
      rw [M.bind_ok hrun]
      simp only [M.pure_apply]
      rw [sendCoins_succeeds he hn1]
      intro d
      have h1 := hmv.bal m.src d
      rw [if_pos rfl, if_neg hsrc, Coins.amt_ofMain] at h1
      rw [hcoins]
      split
      · rename_i hdm; subst hdm
        rw [if_pos rfl] at h1
        have e2 : (balance s m.src).amt .main = (balance s m.src).main := rfl
        rw [e2] at h1
        constructor
        · omega
        · rw [h1]; omega
      · exact ⟨le_refl _, hn1 _ _⟩

/-- C09: a negative `min_send`, which parameter validation accepts, makes every transfer fail. -/
theorem C09_negative_min_send_blocks_all (e : Env) (m : MsgSend) (s : State) (h : s.params.minSend < 0) :
    M.succeeds (send e m) s = false := by
  cases hh : M.succeeds (send e m) s
  · rfl
  · exfalso
    obtain ⟨⟨⟩, ht⟩ := Res.isOk_iff.1 hh
    have hrun : send e m s = (.ok (), (send e m s).2) := Prod.ext ht rfl
    generalize (send e m s).2 = t at *
    unfold send at hrun
    simp only [M.bind_ok_iff, M.errIf_ok_iff, M.panicIf_ok_iff, M.get_apply, Prod.mk.injEq, Res.ok.injEq] at hrun
    obtain ⟨_, _, ⟨hval, rfl⟩, _, _, ⟨hne, rfl⟩, _, _, ⟨k1, rfl⟩, _, _, ⟨k2, rfl⟩, _, _, ⟨hd, rfl⟩, b, s6,
      ⟨rfl, rfl⟩, _, _, ⟨k, rfl⟩, -⟩ := hrun
    simp at k; omega

/-! ### C10 -/

/-- C10: a successful burn takes exactly the amount from the burner and from the supply, and changes nothing else. -/
theorem C10_burn_exact (e : Env) (a : Addr) (n : Nat) (s t : State) (h : burn e a n s = (.ok (), t)) :
    0 < n ∧ n < 2 ^ 64 → 
    (∀ x d, (balance t x).amt d = (balance s x).amt d - if x = a ∧ d = .main then (n : Int) else 0) ∧
    (∀ d, t.supply.amt d = s.supply.amt d - if d = .main then (n : Int) else 0) ∧ t.params = s.params ∧
    (n : Int) ≤ (balance s a).main := by
  rintro ⟨n0, n1⟩
  unfold burn at h
  simp only [M.bind_ok_iff, M.errIf_ok_iff, M.panicIf_ok_iff] at h
  obtain ⟨_, _, ⟨h1, rfl⟩, _, _, ⟨h2, rfl⟩, h3⟩ := h
  have hx : wrap64 n = n := by
    simp only [decide_eq_false_iff_not, not_lt] at h2
    unfold wrap64 at h2 ⊢
    have := Int.bmod_def (n : Int) (2 ^ 64)
    rw [this] at h2 ⊢
    norm_num at h2 ⊢
    split at h2 <;> split <;> omega
  rw [hx] at h3
  obtain ⟨b1, b2, b3, -, b5, -⟩ := burnAccCoins_spec h3
  refine ⟨?_, ?_, b3, ?_⟩
  · intro x d; rw [b1, Coins.amt_ofMain]
    by_cases h1 : x = a <;> by_cases h2 : d = .main <;> simp [h1, h2]
  · intro d; rw [b2, Coins.amt_ofMain]
  · have := b5 .main; rw [Coins.amt_ofMain] at this; simpa [Coins.amt] using this

/-- C10: a burn that cannot be afforded is refused and changes nothing (even before the transaction is undone). -/
theorem C10_unaffordable_burn_refused (e : Env) (a : Addr) (n : Nat) (s : State)
    (h : (balance s a).main < n) (hn : n < 2 ^ 63) :
    (burn e a n s).1.isOk = false ∧ (burn e a n s).2 = s := by
  unfold burn
  by_cases h0 : n = 0
  · simp [h0, M.bind_apply]
  · have hx : wrap64 n = n := by
      unfold wrap64
      apply Int.bmod_eq_of_le <;> norm_num at * <;> omega
    have hd : decide (n = 0) = false := by simpa using h0
    have hp : decide ((n : Int) < 0) = false := by simp
    simp only [M.bind_apply, hd, M.errIf_false, hx, hp, M.panicIf_false]
    have := C07_overspend_refused e a a (Coins.ofMain n) s .main (by
      rw [Coins.amt_ofMain]; simpa [Coins.amt] using h)
    exact ⟨this.2.2.1, this.2.2.2.1⟩

/-- C10: when the state is consistent and hooks succeed, every affordable burn succeeds. -/
theorem C10_affordable_burn_succeeds (e : Env) (he : HooksOk e) (a : Addr) (n : Nat) (s : State)
    (h0 : 0 < n) (hn : n < 2 ^ 63) (hs : ∀ a d, 0 ≤ (balance s a).amt d)
    (hsup : ∀ d, s.supply.amt d = s.balances.sum (fun _ c => c.amt d))
    (h : (n : Int) ≤ (balance s a).main) : M.succeeds (burn e a n) s = true := by
  have hx : wrap64 n = n := by
    unfold wrap64
    apply Int.bmod_eq_of_le <;> norm_num at * <;> omega
  have hd : decide (n = 0) = false := by simp; omega
  have hp : decide ((n : Int) < 0) = false := by simp
  unfold M.succeeds burn
  simp only [M.bind_apply, hd, M.errIf_false, hx, hp, M.panicIf_false]
  unfold burnAccCoins
  have hv : (Coins.ofMain (n : Int)).valid = true := Coins.valid_ofMain.2 (by omega)
  have hb : ((balance s a).sub (Coins.ofMain n)).valid = true := by
    rw [Coins.valid_iff]; intro d
    have := hs a d
    simp only [Coins.amt_sub, Coins.amt_ofMain]
    split
    · rename_i hd; subst hd
      have e2 : (balance s a).amt .main = (balance s a).main := rfl
      omega
    · omega
  rw [M.bind_apply, subtractCoins_apply]
  simp only [hv, hb, Bool.and_self, if_true, he _ _]
  unfold deflate
  have hsv : (s.supply.sub (Coins.ofMain n)).valid = true := by
    rw [Coins.valid_iff]; intro d
    have h1 := KV.part_le_sum (f := fun (_ : Nat) (c : Coins) => c.amt d) (m := s.balances) (by
      intro k v hk
      have := hs k d
      unfold balance at this
      rw [hk] at this; exact this) a
    rw [← hsup] at h1
    have h2 : KV.part (fun (_ : Nat) (c : Coins) => c.amt d) a (s.balances.get a) = (balance s a).amt d := by
      unfold balance
      cases s.balances.get a <;> simp
    rw [h2] at h1
    have h3 := (Coins.valid_iff _).1 hb d
    simp only [Coins.amt_sub] at h3 ⊢
    omega
  simp only [M.bind_apply, M.get_apply, supply_withBalance, hsv, Bool.not_true, M.panicIf_false, M.set_apply,
    Res.isOk_ok]

/-- C10 fails for module accounts: `BurnCoins` reports success although it could not burn anything. -/
theorem C10_module_burn_pretends_success :
    ∃ (e : Env) (s : State) (a : Addr) (c : Coins), HooksOk e ∧ 0 < c.main ∧
      burnCoins e a true c s = (.ok (), s) := by
  refine ⟨⟨fun _ _ => .ok (), fun _ => true, fun _ => false, 1, 2⟩,
    ⟨KV.empty, {}, ⟨0, 0, ⟨⟨0, 1⟩, 0, ⟨0, 1⟩, ⟨0, 1⟩⟩, 0, []⟩⟩, 5, ⟨10, 0, 0, 0⟩, fun _ _ => rfl, by decide, ?_⟩
  decide +kernel

/-! ### C11 -/

/-- C11: a successful multi-party payment balances and changes every account by its outputs minus its inputs. -/
theorem C11_multi_party_exact (e : Env) (ins outs : List InOut) (s t : State)
    (h : inputOutputCoins e ins outs s = (.ok (), t)) :
    (∀ d, (ins.map (fun i => i.coins.amt d)).sum = (outs.map (fun i => i.coins.amt d)).sum) ∧
    (∀ x d, (balance t x).amt d = (balance s x).amt d
      + (outs.map (fun k => if x = k.addr then k.coins.amt d else 0)).sum
      - (ins.map (fun k => if x = k.addr then k.coins.amt d else 0)).sum) ∧
    t.supply = s.supply ∧ t.params = s.params := by
  obtain ⟨m, -, v⟩ := inputOutputCoins_moved h
  refine ⟨?_, ?_, m.supply, m.params⟩
  · intro d
    have : totalCoins ins = totalCoins outs := by
      unfold validateInputsOutputs at v; simp at v; exact v.2
    rw [← totalCoins_amt, this, totalCoins_amt]
  · intro x d; rw [m.bal]; omega

/-- C11: an unbalanced payment is refused without effect. -/
theorem C11_unbalanced_refused (e : Env) (ins outs : List InOut) (s : State) (d : Denom)
    (h : (ins.map (fun i => i.coins.amt d)).sum ≠ (outs.map (fun i => i.coins.amt d)).sum) :
    inputOutputCoins e ins outs s = (.err, s) := by
  have : validateInputsOutputs ins outs = false := by
    cases hv : validateInputsOutputs ins outs
    · rfl
    · exfalso; apply h
      have : totalCoins ins = totalCoins outs := by
        unfold validateInputsOutputs at hv; simp at hv; exact hv.2
      rw [← totalCoins_amt, this, totalCoins_amt]
  unfold inputOutputCoins
  rw [M.bind_apply, this]; rfl

/-! ### C06, bank part -/

/-- C06 (bank operations): supply and sum of balances move together in every successful operation; `burnModule` needs
the burn to be affordable or the hook to succeed, see `C06_swallowed_hook_error` -/
theorem C06_bank_step (e : Env) (op : Op) (s : State)
    (hop : ∀ a bu c, op = .burnModule a bu c → HooksOk e ∧ (∀ a d, 0 ≤ (balance s a).amt d))
    (h : ∀ d, s.supply.amt d = s.balances.sum (fun _ c => c.amt d)) :
    ∀ d, (M.tx (op.run e) s).supply.amt d = (M.tx (op.run e) s).balances.sum (fun _ c => c.amt d) := by
  rcases M.tx_cases (op.run e) s with ⟨⟨⟩, hr⟩ | ⟨-, hr⟩
  swap
  · rw [hr]; exact h
  generalize M.tx (op.run e) s = t at *
  have goal : ∀ d, t.supply.amt d - total t d = s.supply.amt d - total s d := by
    cases op with
    | send m =>
      unfold Op.run send at hr
      simp only [M.bind_ok_iff, M.errIf_ok_iff, M.panicIf_ok_iff, M.get_apply, Prod.mk.injEq, Res.ok.injEq] at hr
      obtain ⟨_, _, ⟨hval, rfl⟩, _, _, ⟨hne, rfl⟩, _, _, ⟨k1, rfl⟩, _, _, ⟨k2, rfl⟩, _, _, ⟨hd, rfl⟩, b, s6,
        ⟨rfl, rfl⟩, _, _, ⟨-, rfl⟩, _, _, ⟨k4, rfl⟩, _, _, ⟨k5, rfl⟩, fee2, s10, hf, hs2⟩ := hr
      obtain ⟨m1, t1, -⟩ := payTxFee_moved hf
      obtain ⟨m2, t2, -⟩ := sendCoins_moved hs2
      intro d; rw [m2.supply, m1.supply, t2, t1]
    | burn a n =>
      unfold Op.run burn at hr
      simp only [M.bind_ok_iff, M.errIf_ok_iff, M.panicIf_ok_iff] at hr
      obtain ⟨_, _, ⟨h1, rfl⟩, _, _, ⟨h2, rfl⟩, h3⟩ := hr
      obtain ⟨-, b2, -, b4, -⟩ := burnAccCoins_spec h3
      intro d; rw [b2, b4]; omega
    | multi i o =>
      obtain ⟨m, tt, -⟩ := inputOutputCoins_moved hr
      intro d; rw [m.supply, tt]
    | payFee a c =>
      unfold Op.run at hr
      rw [M.bind_ok_iff] at hr
      obtain ⟨f, s1, h1, h2⟩ := hr
      simp only [M.pure_apply, Prod.mk.injEq] at h2
      obtain ⟨-, rfl⟩ := h2
      obtain ⟨m, tt, -⟩ := payTxFee_moved h1
      intro d; rw [m.supply, tt]
    | mint a mi c =>
      obtain ⟨-, b2, -, b4, -⟩ := mintCoins_spec hr
      intro d; rw [b2, b4]; omega
    | burnModule a bu c =>
      obtain ⟨he, hn⟩ := hop a bu c rfl
      unfold Op.run burnCoins at hr
      rw [M.bind_ok_iff] at hr
      obtain ⟨_, s0, h0, h1⟩ := hr
      obtain ⟨-, rfl⟩ := M.panicIf_ok_iff.1 h0
      unfold M.ignoreErr at h1
      rcases hb : burnAccCoins e a c s0 with ⟨r, s'⟩
      rw [hb] at h1
      cases r with
      | ok u =>
        simp only [Prod.mk.injEq] at h1
        obtain ⟨-, rfl⟩ := h1
        obtain ⟨-, b2, -, b4, -⟩ := burnAccCoins_spec hb
        intro d; rw [b2, b4]; omega
      | err =>
        simp only [Prod.mk.injEq] at h1
        obtain ⟨-, rfl⟩ := h1
        -- the error can only be the refusal before any write
        unfold burnAccCoins at hb
        rw [M.bind_apply, subtractCoins_apply] at hb
        split at hb
        · rename_i heq
          split at heq
          · simp only [Prod.mk.injEq] at heq
            unfold deflate at hb
            simp only [M.bind_apply, M.get_apply] at hb
            rename_i s1 _
            cases hv : (s1.supply.sub c).valid <;> simp [hv] at hb
          · simp at heq
        · rename_i heq
          split at heq
          · simp [he _ _] at heq
          · simp only [Prod.mk.injEq, true_and] at heq hb
            rw [← hb, ← heq]; intro d; rfl
        · rename_i heq
          simp at hb
      | panic => simp at h1
  intro d
  have h1 := goal d
  have h2 := h d
  unfold total at h1
  omega

/-- The swallowed error of `BurnCoins` can break the supply equation when the hook fails: the balance was already
reduced, the supply is not, and the transaction is reported as successful. -/
theorem C06_swallowed_hook_error :
    ∃ (e : Env) (s : State) (a : Addr) (c : Coins),
      (∀ d, s.supply.amt d = s.balances.sum (fun _ c => c.amt d)) ∧
      ∃ d, (M.tx (burnCoins e a true c) s).supply.amt d
        ≠ (M.tx (burnCoins e a true c) s).balances.sum (fun _ c => c.amt d) := by
  refine ⟨⟨fun _ _ => .err, fun _ => true, fun _ => false, 1, 2⟩,
    ⟨KV.empty.set 5 ⟨10, 0, 0, 0⟩, ⟨10, 0, 0, 0⟩, ⟨0, 0, ⟨⟨0, 1⟩, 0, ⟨0, 1⟩, ⟨0, 1⟩⟩, 0, []⟩⟩, 5, ⟨10, 0, 0, 0⟩, ?_,
    .main, by decide +kernel⟩
  intro d; cases d <;> decide +kernel

theorem forEach_setBalance {e : Env} {l : List InOut} {s t : State} {u : Unit}
    (hnd : (l.map InOut.addr).Nodup) (hfresh : ∀ x ∈ l, balance s x.addr = {})
    (h : M.forEach l (fun x => setBalance e x.addr x.coins) s = (.ok u, t)) :
    (∀ d, total t d = total s d + (l.map (fun i => i.coins.amt d)).sum) ∧ t.supply = s.supply ∧
    (NonNeg s → NonNeg t) := by
  induction l generalizing s with
  | nil => simp at h; subst h; simp
  | cons a l ih =>
    rw [M.forEach_cons, M.bind_ok_iff] at h
    obtain ⟨_, s1, h1, h2⟩ := h
    simp only [List.map_cons, List.nodup_cons] at hnd
    rw [setBalance_apply] at h1
    split at h1
    · rename_i hv
      simp only [Prod.mk.injEq] at h1
      obtain ⟨-, rfl⟩ := h1
      obtain ⟨i1, i2, i3⟩ := ih hnd.2 (by
        intro x hx
        rw [balance_withBalance, if_neg]
        · exact hfresh x (by simp [hx])
        · intro hh; exact hnd.1 (by rw [← hh]; exact List.mem_map_of_mem hx)) h2
      refine ⟨?_, i2, ?_⟩
      · intro d
        rw [i1, total_withBalance, hfresh a (by simp)]
        simp only [List.map_cons, List.sum_cons, Coins.amt_zero]; omega
      · intro hn; apply i3; intro x d; rw [balance_withBalance]; split
        · exact (Coins.valid_iff _).1 hv d
        · exact hn x d
    · simp at h1

/-- C06/C07 (genesis): starting from a genesis file without an explicit supply and without repeated addresses, the
supply is the sum of the balances and no balance is negative. -/
theorem C06_genesis (e : Env) (p : Params) (bals : List InOut) (s0 s : State)
    (hnd : (bals.map InOut.addr).Nodup) (h : initGenesis e p bals {} s0 = (.ok (), s)) :
    (∀ d, s.supply.amt d = s.balances.sum (fun _ c => c.amt d)) ∧ (∀ a d, 0 ≤ (balance s a).amt d) := by
  unfold initGenesis at h
  simp only [M.bind_ok_iff, M.set_apply, M.modify_apply, Prod.mk.injEq] at h
  obtain ⟨_, _, ⟨-, rfl⟩, _, s1, h1, -, rfl⟩ := h
  obtain ⟨i1, i2, i3⟩ := forEach_setBalance hnd (by intro x _; rfl) h1
  constructor
  · intro d
    have := i1 d
    unfold total at this
    show (totalCoins bals).amt d = _
    rw [totalCoins_amt, this]; simp
  · exact i3 (by intro x d; simp [balance])

/-- C06 fails for a genesis file with an explicit supply: nothing compares it with the balances (`ValidateGenesis`
accepts everything, types/genesis.go:25). -/
theorem C06_genesis_supply_unchecked :
    ∃ (e : Env) (p : Params) (bals : List InOut) (sup : Coins) (s : State), HooksOk e ∧
      initGenesis e p bals sup ⟨KV.empty, {}, p⟩ = (.ok (), s) ∧
      ∃ d, s.supply.amt d ≠ s.balances.sum (fun _ c => c.amt d) := by
  refine ⟨⟨fun _ _ => .ok (), fun _ => true, fun _ => false, 1, 2⟩,
    ⟨0, 0, ⟨⟨0, 1⟩, 0, ⟨0, 1⟩, ⟨0, 1⟩⟩, 0, []⟩, [⟨5, ⟨10, 0, 0, 0⟩⟩], ⟨7, 0, 0, 0⟩,
    ⟨KV.empty.set 5 ⟨10, 0, 0, 0⟩, ⟨7, 0, 0, 0⟩, ⟨0, 0, ⟨⟨0, 1⟩, 0, ⟨0, 1⟩, ⟨0, 1⟩⟩, 0, []⟩⟩, fun _ _ => rfl,
    by decide +kernel, .main, by decide +kernel⟩

/-! ### concrete cases meeting the hypotheses -/

/-- A consistent state with three funded accounts and the default fee parameters. -/
def exampleState : State :=
  ⟨((KV.empty.set 5 ⟨1000000, 20, 0, 0⟩).set 6 ⟨3, 0, 7, 0⟩).set 2 ⟨100, 0, 0, 0⟩, ⟨1000103, 20, 7, 0⟩,
   ⟨1000, 10, ⟨⟨3, 1000⟩, 10000000, ⟨1, 2⟩, ⟨3, 10⟩⟩, 9, [77]⟩⟩

def exampleEnv : Env := ⟨fun _ _ => .ok (), fun a => decide (a < 50), fun _ => false, 1, 2⟩

-- a transfer of 500000 with fee 1500, to another account, to oneself and to the fee collector
example : (send exampleEnv ⟨5, 6, ⟨500000, 0, 0, 0⟩⟩ exampleState).1 = .ok () ∧
    balance (M.tx (send exampleEnv ⟨5, 6, ⟨500000, 0, 0, 0⟩⟩) exampleState) 5 = ⟨498500, 20, 0, 0⟩ ∧
    balance (M.tx (send exampleEnv ⟨5, 6, ⟨500000, 0, 0, 0⟩⟩) exampleState) 6 = ⟨500003, 0, 7, 0⟩ ∧
    balance (M.tx (send exampleEnv ⟨5, 6, ⟨500000, 0, 0, 0⟩⟩) exampleState) 2 = ⟨1600, 0, 0, 0⟩ ∧
    balance (M.tx (send exampleEnv ⟨5, 5, ⟨500000, 0, 0, 0⟩⟩) exampleState) 5 = ⟨998500, 20, 0, 0⟩ ∧
    balance (M.tx (send exampleEnv ⟨5, 2, ⟨500000, 0, 0, 0⟩⟩) exampleState) 2 = ⟨501600, 0, 0, 0⟩ := by
  decide +kernel
-- amount + fee not affordable
example : (send exampleEnv ⟨5, 6, ⟨999999, 0, 0, 0⟩⟩ exampleState).1 = .err := by decide +kernel
example : validateFeeParams? exampleState.params.fee = some true := by decide +kernel
example : (inputOutputCoins exampleEnv [⟨5, ⟨7, 2, 0, 0⟩⟩, ⟨5, ⟨3, 0, 0, 0⟩⟩] [⟨6, ⟨10, 0, 0, 0⟩⟩, ⟨5, ⟨0, 2, 0, 0⟩⟩]
    exampleState).1 = .ok () := by decide +kernel
example : (burn exampleEnv 5 400 exampleState).1 = .ok () := by decide +kernel

end Verif.Bank
