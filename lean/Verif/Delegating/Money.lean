import Verif.Delegating.Rates
import Verif.Bank.Shift

/-! What the coin-moving helpers of the delegating module do to the bank store. -/
namespace Verif.Delegating
open Verif.Util Verif.Bank

theorem onBank_apply {α : Type} (m : M Bank.State α) (s : State) :
    onBank m s = ((m s.bank).1, { s with bank := (m s.bank).2 }) := rfl

theorem onBank_of_ok {α : Type} {m : M Bank.State α} {s : State} {a : α} {b : Bank.State} (h : m s.bank = (.ok a, b)) :
    onBank m s = (.ok a, { s with bank := b }) := by rw [onBank_apply, h]

theorem onBank_ok_iff {α : Type} {m : M Bank.State α} {s t : State} {a : α} :
    onBank m s = (.ok a, t) ↔ m s.bank = (.ok a, t.bank) ∧ t = { s with bank := t.bank } := by
  rw [onBank_apply]
  constructor
  · intro h
    simp only [Prod.mk.injEq] at h
    obtain ⟨h1, h2⟩ := h
    subst h2
    exact ⟨Prod.ext h1 rfl, rfl⟩
  · rintro ⟨h1, h2⟩
    rw [h1]; exact Prod.ext rfl h2.symm

theorem mustBank_of_ok {m : M Bank.State Unit} {s : State} {a : Unit} {b : Bank.State} (h : m s.bank = (.ok a, b)) :
    mustBank m s = (.ok a, { s with bank := b }) := by unfold mustBank; rw [h]

theorem mustBank_ok_iff {m : M Bank.State Unit} {s t : State} {a : Unit} :
    mustBank m s = (.ok a, t) ↔ m s.bank = (.ok a, t.bank) ∧ t = { s with bank := t.bank } := by
  unfold mustBank
  rcases h : m s.bank with ⟨r, b⟩
  cases r with
  | ok x =>
    simp only [Prod.mk.injEq]
    constructor
    · rintro ⟨h1, rfl⟩; exact ⟨⟨h1, rfl⟩, rfl⟩
    · rintro ⟨⟨h1, rfl⟩, h2⟩; exact ⟨h1, h2.symm⟩
  | err => simp
  | panic => simp

/-! ### convert -/

theorem convert_ok {e : Env} {a : Addr} {minus plus : Coins} {s t : State} {u : Unit}
    (h : convert e a minus plus s = (.ok u, t)) :
    Shift (fun x d => if x = a then plus.amt d - minus.amt d else 0) (fun d => plus.amt d - minus.amt d)
      (fun d => plus.amt d - minus.amt d) s.bank t.bank ∧ t = { s with bank := t.bank } ∧
    (∀ d, 0 ≤ minus.amt d) ∧ (∀ d, 0 ≤ plus.amt d) ∧ (∀ d, minus.amt d ≤ (balance s.bank a).amt d) := by
  unfold convert at h
  obtain ⟨_, s0, h0, g0⟩ := M.bind_ok_iff.1 h
  obtain ⟨-, rfl⟩ := M.panicIf_ok_iff.1 h0
  obtain ⟨_, s1, h1', g1⟩ := M.bind_ok_iff.1 g0
  obtain ⟨h1, e1⟩ := onBank_ok_iff.1 h1'
  obtain ⟨_, s2, h2, g2⟩ := M.bind_ok_iff.1 g1
  obtain ⟨-, rfl⟩ := M.panicIf_ok_iff.1 h2
  obtain ⟨_, s3, h3', g3⟩ := M.bind_ok_iff.1 g2
  obtain ⟨h3, e3⟩ := onBank_ok_iff.1 h3'
  obtain ⟨_, s4, h4', g4⟩ := M.bind_ok_iff.1 g3
  obtain ⟨h4, e4⟩ := onBank_ok_iff.1 h4'
  obtain ⟨h5, e5⟩ := onBank_ok_iff.1 g4
  obtain ⟨f1, v1, l1⟩ := subtractCoins_shift h1
  obtain ⟨f3, v3⟩ := addCoins_shift h3
  have f4 := deflate_shift h4
  have f5 := inflate_shift plus s4.bank
  rw [h5] at f5
  refine ⟨(((f1.trans f3).trans f4).trans f5).congr ?_ ?_ ?_, ?_, v1, v3, l1⟩
  · intro x d; by_cases hx : x = a <;> simp [hx]; omega
  · intro d; simp; omega
  · intro d; simp; omega
  · rw [e5, e4, e3, e1]

theorem convert_succ {e : Env} (he : HooksOk e.bank) {a : Addr} {minus plus : Coins} {s : State}
    (hn : NonNeg s.bank) (hs : SupplyEq s.bank) (hm : ∀ d, 0 ≤ minus.amt d) (hp : ∀ d, 0 ≤ plus.amt d)
    (hb : ∀ d, minus.amt d ≤ (balance s.bank a).amt d) : ∃ t, convert e a minus plus s = (.ok (), t) := by
  obtain ⟨b1, h1⟩ := subtractCoins_succ he (s := s.bank) hm hb
  obtain ⟨f1, -, -⟩ := subtractCoins_shift h1
  have n1 : NonNeg b1 := by
    intro x d; rw [f1.bal]; split
    · next hx => subst hx; have := hb d; omega
    · have := hn x d; omega
  obtain ⟨b2, h2⟩ := addCoins_succ he (a := a) n1 hp
  obtain ⟨f2, -⟩ := addCoins_shift h2
  obtain ⟨b3, h3⟩ := deflate_succ (c := minus) (s := b2) (by
    intro d
    rw [f2.supply, f1.supply, hs d]
    have h1 := hb d
    have := balance_le_total hn a d
    omega)
  unfold convert
  rw [M.bind_ok ((M.panicIf_ok_iff (u := ())).2 ⟨by rw [(Coins.valid_iff minus).2 hm]; rfl, rfl⟩), M.bind_ok (onBank_of_ok h1),
    M.bind_ok ((M.panicIf_ok_iff (u := ())).2 ⟨by rw [(Coins.valid_iff plus).2 hp]; rfl, rfl⟩), M.bind_ok (onBank_of_ok h2),
    M.bind_ok (onBank_of_ok h3)]
  exact ⟨_, rfl⟩

/-- Too few coins (or a nonsensical amount): nothing happens. -/
theorem convert_refused {e : Env} {a : Addr} {minus plus : Coins} {s : State}
    (h : ¬ ((∀ d, 0 ≤ minus.amt d) ∧ ∀ d, minus.amt d ≤ (balance s.bank a).amt d)) :
    (convert e a minus plus s).1.isOk = false ∧ (convert e a minus plus s).2 = s := by
  unfold convert
  cases hv : minus.valid
  · rw [M.bind_panic (s' := s)]
    · exact ⟨rfl, rfl⟩
    · rfl
  · rw [M.bind_ok (s' := s) (a := ()) (by rfl), M.bind_err (s' := s)]
    · exact ⟨rfl, rfl⟩
    · rw [onBank_apply, subtractCoins_fail h]

/-! ### Interest payments -/

/-- Fee parameters as accepted (C05), with a well-formed rate of at most one (see C03, C05 for what goes wrong
otherwise). -/
structure FeeOk (q : FeeParams) : Prop where
  valid : validateFeeParams? q = some true
  denom : q.rate.denom ≠ 0
  le_one : q.rate.toRat ≤ 1

/-- Amounts of the main denomination. -/
def onMain (x : Int) (d : Denom) : Int := if d = .main then x else 0

@[simp] theorem onMain_zero (d : Denom) : onMain 0 d = 0 := by simp [onMain]
@[simp] theorem onMain_main (x : Int) : onMain x .main = x := by simp [onMain]
theorem amt_main (x : Int) (d : Denom) : (Coins.ofMain x).amt d = onMain x d := Coins.amt_ofMain x d

theorem onMain_nonneg {x : Int} (h : 0 ≤ x) (d : Denom) : 0 ≤ onMain x d := by unfold onMain; split <;> omega

theorem accrue_spec {e : Env} (he : HooksOk e.bank) {a : Addr} {u : Int} {s : State} (hn : NonNeg s.bank)
    (hq : FeeOk s.bank.params.fee) (h0 : 0 ≤ u) (h1 : u < 2 ^ 63) {p : Bool} (hp : e.profile a = some p) :
    ∃ t fee, accrue e a u s = (.ok (), t) ∧ t = { s with bank := t.bank } ∧ 0 ≤ fee ∧ fee ≤ u ∧
      ((u = 0 ∧ fee = 0) ∨ calculateFee? u s.bank.params.fee.rate s.bank.params.fee.maxFee s.bank.params.fee.forProposer
        s.bank.params.fee.forCompany = some fee) ∧
      Shift (fun x d => (if x = a then onMain (u - fee) d else 0) + (if x = e.bank.splitCollector then onMain fee d else 0))
        (onMain u) (onMain u) s.bank t.bank := by
  by_cases hu : u = 0
  · subst hu
    refine ⟨s, 0, by simp [accrue], rfl, le_refl _, le_refl _, Or.inl ⟨rfl, rfl⟩, ?_⟩
    exact (Shift.refl _).congr (fun x d => by simp) (fun d => by simp) (fun d => by simp)
  · obtain ⟨fee, l, -, hf, -, -, f0, f1⟩ := C03_fee_within_amount_partial s.bank.params.fee u hq.valid hq.denom hq.le_one h0 h1
    have sh0 := inflate_shift (Coins.ofMain u) s.bank
    have n0 : NonNeg (inflate (Coins.ofMain u) s.bank).2 := hn.shift sh0 (fun _ _ => le_refl _)
    have i0 : onBank (inflate (Coins.ofMain u)) s = (.ok (), { s with bank := (inflate (Coins.ofMain u) s.bank).2 }) := rfl
    unfold accrue
    rw [if_neg hu]
    simp only [hp]
    rw [M.bind_ok ((M.panicIf_ok_iff (u := ())).2 ⟨by simpa using h0, rfl⟩), M.bind_ok i0, M.bind_ok (M.get_apply _)]
    simp only [show (inflate (Coins.ofMain u) s.bank).2.params = s.bank.params from rfl]
    rw [M.bind_ok (M.orPanic_ok_iff.2 ⟨hf, rfl⟩)]
    by_cases hz : fee = 0
    · rw [if_pos hz]
      obtain ⟨b, hb⟩ := addCoins_succ he (a := a) (c := Coins.ofMain u) n0 (fun d => by rw [amt_main]; exact onMain_nonneg h0 d)
      obtain ⟨sh1, -⟩ := addCoins_shift hb
      refine ⟨_, fee, mustBank_of_ok hb, rfl, f0, f1, Or.inr hf, (sh0.trans sh1).congr ?_ ?_ ?_⟩
      · intro x d; simp [hz, amt_main]
      · intro d; simp [amt_main]
      · intro d; simp [amt_main]
    · rw [if_neg hz, M.bind_ok ((M.panicIf_ok_iff (u := ())).2 ⟨by simpa using f0, rfl⟩),
        M.bind_ok ((M.panicIf_ok_iff (u := ())).2 ⟨by simp; omega, rfl⟩)]
      obtain ⟨b, hb⟩ := addCoins_succ he (a := e.bank.splitCollector) (c := Coins.ofMain fee) n0
        (fun d => by rw [amt_main]; exact onMain_nonneg f0 d)
      obtain ⟨sh1, -⟩ := addCoins_shift hb
      have n1 : NonNeg b := n0.shift sh1 (fun x d => by
        split
        · rw [amt_main]; exact onMain_nonneg f0 d
        · exact le_refl _)
      obtain ⟨b2, hb2⟩ := addCoins_succ he (a := a) (c := Coins.ofMain (u - fee)) n1
        (fun d => by rw [amt_main]; exact onMain_nonneg (by omega) d)
      obtain ⟨sh2, -⟩ := addCoins_shift hb2
      rw [M.bind_ok (mustBank_of_ok hb)]
      refine ⟨_, fee, mustBank_of_ok hb2, rfl, f0, f1, Or.inr hf, ((sh0.trans sh1).trans sh2).congr ?_ ?_ ?_⟩
      · intro x d; simp [amt_main]; omega
      · intro d; simp [amt_main]
      · intro d; simp [amt_main, onMain]; split <;> omega

/-- A negative accrual panics before anything is written; an account without a profile gets nothing. -/
theorem accrue_other {e : Env} {a : Addr} {u : Int} {s : State} (h : u < 0 ∨ e.profile a = none) :
    (accrue e a u s).2 = s := by
  unfold accrue
  by_cases hu : u = 0
  · simp [hu]
  · rw [if_neg hu]
    rcases hp : e.profile a with _ | p
    · rfl
    · rcases h with h | h
      · simp only
        rw [M.bind_panic (s' := s)]
        simp [h]
      · rw [hp] at h; cases h

/-- Sum of what a list of payments brings to an account. -/
def received (l : List (Addr × Int)) (x : Addr) : Int := (l.map (fun o => if x = o.1 then o.2 else 0)).sum

theorem pay_all {e : Env} (he : HooksOk e.bank) (l : List (Addr × Int)) (hl : ∀ o ∈ l, 0 < o.2) {s : State}
    (hn : NonNeg s.bank) :
    ∃ t, M.forEach l (fun o => mustBank (addCoins e.bank o.1 (Coins.ofMain o.2))) s = (.ok (), t) ∧
      t = { s with bank := t.bank } ∧
      Shift (fun x d => onMain (received l x) d) (fun _ => 0) (onMain (l.map Prod.snd).sum) s.bank t.bank := by
  induction l generalizing s with
  | nil =>
    exact ⟨s, rfl, rfl, (Shift.refl _).congr (fun x d => by simp [received]) (fun d => rfl) (fun d => by simp)⟩
  | cons o l ih =>
    have h0 : 0 < o.2 := hl o (by simp)
    obtain ⟨b, hb⟩ := addCoins_succ he (a := o.1) (c := Coins.ofMain o.2) hn
      (fun d => by rw [amt_main]; exact onMain_nonneg h0.le d)
    obtain ⟨sh1, -⟩ := addCoins_shift hb
    have n1 : NonNeg b := hn.shift sh1 (fun x d => by
      split
      · rw [amt_main]; exact onMain_nonneg h0.le d
      · exact le_refl _)
    obtain ⟨t, ht, te, sh2⟩ := ih (fun o' ho' => hl o' (by simp [ho'])) (s := { s with bank := b }) n1
    refine ⟨t, ?_, te, (sh1.trans sh2).congr ?_ ?_ ?_⟩
    · rw [M.forEach_cons, M.bind_ok (mustBank_of_ok hb)]; exact ht
    · intro x d
      simp only [received, List.map_cons, List.sum_cons, amt_main, onMain]
      split <;> split <;> omega
    · intro d; simp
    · intro d; simp [amt_main, onMain]; split <;> omega

/-- What `accrueToValidator` pays out for base `u` and the ratios `l`. -/
theorem accrueToValidator_spec {e : Env} (he : HooksOk e.bank) {a : Addr} {u : Int} {s : State} (hn : NonNeg s.bank)
    (h0 : 0 ≤ u) (h1 : u < 2 ^ 63) {p : Bool} (hp : e.profile a = some p) {l : List (Addr × Frac)} (hl : e.fees a = some l)
    (hr : RatiosOk l) :
    ∃ t, accrueToValidator e a u s = (.ok (), t) ∧ t = { s with bank := t.bank } ∧
      Shift (fun x d => onMain (received (dueShares u l) x) d) (onMain ((dueShares u l).map Prod.snd).sum)
        (onMain ((dueShares u l).map Prod.snd).sum) s.bank t.bank := by
  have hpos := dueShares_bound h0 hr
  have hnil : ((dueShares u l).map Prod.snd).sum = 0 → dueShares u l = [] := by
    intro hz
    rcases hd : dueShares u l with _ | ⟨o, os⟩
    · rfl
    · exfalso
      rw [hd] at hz hpos
      have h1 := hpos.1 o (by simp)
      have h2 : 0 ≤ (os.map Prod.snd).sum := by
        apply List.sum_nonneg
        intro q hq
        obtain ⟨y, hy, rfl⟩ := List.mem_map.1 hq
        exact (hpos.1 y (by simp [hy])).le
      simp only [List.map_cons, List.sum_cons] at hz
      omega
  have hdone : ∀ t0 : State, dueShares u l = [] → Shift (fun x d => onMain (received (dueShares u l) x) d)
      (onMain ((dueShares u l).map Prod.snd).sum) (onMain ((dueShares u l).map Prod.snd).sum) t0.bank t0.bank := by
    intro t0 hh
    rw [hh]
    exact (Shift.refl _).congr (fun x d => by simp [received]) (fun d => by simp) (fun d => by simp)
  by_cases hu : u = 0
  · refine ⟨s, by simp [accrueToValidator, hu], rfl, hdone s ?_⟩
    subst hu; simp [dueShares]; intro _ b _ _ _ _ hb; exact hb.symm
  · unfold accrueToValidator
    rw [if_neg hu]
    simp only [hp]
    rw [M.bind_ok (M.orPanic_ok_iff.2 ⟨hl, rfl⟩), M.bind_ok (M.orPanic_ok_iff.2 ⟨shares_spec h0 h1 hr, rfl⟩)]
    simp only
    by_cases hz : ((dueShares u l).map Prod.snd).sum = 0
    · rw [if_pos hz]
      exact ⟨s, rfl, rfl, hdone s (hnil hz)⟩
    · rw [if_neg hz]
      obtain ⟨t, ht, te, sh⟩ := pay_all he (dueShares u l) hpos.1 hn
      rw [M.bind_ok ht, M.bind_ok ((M.panicIf_ok_iff (u := ())).2 ⟨by simpa using hpos.2.1, rfl⟩)]
      have sh0 := inflate_shift (Coins.ofMain ((dueShares u l).map Prod.snd).sum) t.bank
      refine ⟨_, rfl, by rw [te], (sh.trans sh0).congr ?_ ?_ ?_⟩
      · intro x d; simp
      · intro d; simp [amt_main]
      · intro d; simp

/-- In the other cases nothing is paid. -/
theorem accrueToValidator_other {e : Env} {a : Addr} {u : Int} {s : State} (hb : -(2 ^ 63) ≤ u)
    (hr : ∀ l, e.fees a = some l → RatiosOk l) (h : u < 0 ∨ e.profile a = none ∨ e.fees a = none) :
    (accrueToValidator e a u s).2 = s := by
  unfold accrueToValidator
  by_cases hu : u = 0
  · simp [hu]
  · rw [if_neg hu]
    rcases hp : e.profile a with _ | p
    · rfl
    · simp only
      rcases hf : e.fees a with _ | l
      · rw [M.bind_panic (s' := s)]; simp
      · rw [M.bind_ok (M.orPanic_ok_iff.2 ⟨rfl, rfl⟩)]
        have hneg : u < 0 := by
          rcases h with h | h | h
          · exact h
          · rw [hp] at h; cases h
          · rw [hf] at h; cases h
        rcases shares_neg hneg hb (hr l hf) with hh | hh
        · rw [hh, M.bind_panic (s' := s)]; simp
        · rw [hh, M.bind_ok (M.orPanic_ok_iff.2 ⟨rfl, rfl⟩)]; simp

end Verif.Delegating
