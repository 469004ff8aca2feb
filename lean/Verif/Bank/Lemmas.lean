import Verif.Bank.Model

/-! Helper lemmas about the bank model. -/
namespace Verif.Bank
open Verif.Util

namespace Coins

@[ext] theorem ext_amt {a b : Coins} (h : ∀ d, a.amt d = b.amt d) : a = b := by
  have h1 := h .main; have h2 := h .delegated; have h3 := h .revoking; have h4 := h .other
  cases a; cases b; simp [amt] at *; exact ⟨h1, h2, h3, h4⟩

@[simp] theorem amt_add (a b : Coins) (d : Denom) : (a.add b).amt d = a.amt d + b.amt d := by
  cases d <;> rfl
@[simp] theorem amt_sub (a b : Coins) (d : Denom) : (a.sub b).amt d = a.amt d - b.amt d := by
  cases d <;> rfl
@[simp] theorem amt_zero (d : Denom) : ({} : Coins).amt d = 0 := by cases d <;> rfl

theorem valid_iff (c : Coins) : c.valid = true ↔ ∀ d, 0 ≤ c.amt d := by
  unfold valid
  rw [decide_eq_true_iff]
  constructor
  · rintro ⟨h1, h2, h3, h4⟩ d; cases d <;> assumption
  · intro h; exact ⟨h .main, h .delegated, h .revoking, h .other⟩

theorem isEmpty_iff (c : Coins) : c.isEmpty = true ↔ c = {} := by simp [isEmpty]

/-- The amounts of a coin set of the main denomination. -/
theorem amt_ofMain (x : Int) (d : Denom) : (ofMain x).amt d = if d = .main then x else 0 := by
  cases d <;> rfl
theorem amt_ofDelegated (x : Int) (d : Denom) : (ofDelegated x).amt d = if d = .delegated then x else 0 := by
  cases d <;> rfl
theorem amt_ofRevoking (x : Int) (d : Denom) : (ofRevoking x).amt d = if d = .revoking then x else 0 := by
  cases d <;> rfl

theorem valid_ofMain {x : Int} : (ofMain x).valid = true ↔ 0 ≤ x := by simp [valid, ofMain]
theorem valid_ofDelegated {x : Int} : (ofDelegated x).valid = true ↔ 0 ≤ x := by simp [valid, ofDelegated]
theorem valid_ofRevoking {x : Int} : (ofRevoking x).valid = true ↔ 0 ≤ x := by simp [valid, ofRevoking]

end Coins

/-- The balances with one account's balance replaced (records of empty balances are removed). -/
def withBalance (s : State) (a : Addr) (c : Coins) : State :=
  { s with balances := if c.isEmpty then s.balances.erase a else s.balances.set a c }

/-- Sum over all accounts. -/
def total (s : State) (d : Denom) : Int := s.balances.sum (fun _ c => c.amt d)

theorem balance_withBalance (s : State) (a x : Addr) (c : Coins) :
    balance (withBalance s a c) x = if x = a then c else balance s x := by
  unfold balance withBalance
  simp only
  split
  · rename_i h; rw [Coins.isEmpty_iff] at h; subst h
    rw [KV.get_erase]; split <;> rfl
  · rw [KV.get_set]; split <;> rfl

@[simp] theorem supply_withBalance (s : State) (a : Addr) (c : Coins) : (withBalance s a c).supply = s.supply := rfl
@[simp] theorem params_withBalance (s : State) (a : Addr) (c : Coins) : (withBalance s a c).params = s.params := rfl

theorem total_withBalance (s : State) (a : Addr) (c : Coins) (d : Denom) :
    total (withBalance s a c) d = total s d - (balance s a).amt d + c.amt d := by
  have hp : KV.part (fun (_ : Nat) (c : Coins) => c.amt d) a (s.balances.get a) = (balance s a).amt d := by
    unfold balance
    cases s.balances.get a <;> simp
  unfold total withBalance
  simp only
  split
  · rename_i h; rw [Coins.isEmpty_iff] at h; subst h
    rw [KV.sum_erase, hp]; simp
  · rw [KV.sum_set, hp]

theorem setBalance_apply (e : Env) (a : Addr) (c : Coins) (s : State) :
    setBalance e a c s =
      if c.valid then (e.hook (withBalance s a c) a, withBalance s a c) else (.err, s) := by
  unfold setBalance
  cases h : c.valid
  · rfl
  · rfl

theorem subtractCoins_apply (e : Env) (a : Addr) (c : Coins) (s : State) :
    subtractCoins e a c s =
      if c.valid && ((balance s a).sub c).valid then
        (e.hook (withBalance s a ((balance s a).sub c)) a, withBalance s a ((balance s a).sub c))
      else (.err, s) := by
  unfold subtractCoins
  cases h : c.valid
  · rfl
  · cases h2 : ((balance s a).sub c).valid
    · simp [bind, M.bind, h2]
    · simp [bind, M.bind, h2, setBalance_apply]

theorem addCoins_apply (e : Env) (a : Addr) (c : Coins) (s : State) :
    addCoins e a c s =
      if c.valid then
        if ((balance s a).add c).valid then
          (e.hook (withBalance s a ((balance s a).add c)) a, withBalance s a ((balance s a).add c))
        else (.panic, s)
      else (.err, s) := by
  unfold addCoins
  cases h : c.valid
  · rfl
  · cases h2 : ((balance s a).add c).valid
    · simp [bind, M.bind, h2]
    · simp [bind, M.bind, h2, setBalance_apply]

theorem subtractCoins_ok {e : Env} {a : Addr} {c : Coins} {s t : State} {u : Unit} :
    subtractCoins e a c s = (.ok u, t) ↔
      c.valid = true ∧ ((balance s a).sub c).valid = true ∧ t = withBalance s a ((balance s a).sub c) ∧
      e.hook t a = .ok () := by
  rw [subtractCoins_apply]
  constructor
  · intro h
    split at h
    · rename_i hh; simp only [Bool.and_eq_true] at hh
      simp only [Prod.mk.injEq] at h
      obtain ⟨h1, rfl⟩ := h
      exact ⟨hh.1, hh.2, rfl, h1⟩
    · simp at h
  · rintro ⟨h1, h2, rfl, h4⟩
    simp [h1, h2, h4]

theorem addCoins_ok {e : Env} {a : Addr} {c : Coins} {s t : State} {u : Unit} :
    addCoins e a c s = (.ok u, t) ↔
      c.valid = true ∧ ((balance s a).add c).valid = true ∧ t = withBalance s a ((balance s a).add c) ∧
      e.hook t a = .ok () := by
  rw [addCoins_apply]
  constructor
  · intro h
    split at h
    · split at h
      · simp only [Prod.mk.injEq] at h
        obtain ⟨h1, rfl⟩ := h
        exact ⟨‹_›, ‹_›, rfl, h1⟩
      · simp at h
    · simp at h
  · rintro ⟨h1, h2, rfl, h4⟩
    simp [h1, h2, h4]

/-- What a successful balance-moving computation did: the balances changed by `delta`, nothing else changed. -/
structure Moved (delta : Addr → Denom → Int) (s t : State) : Prop where
  bal : ∀ x d, (balance t x).amt d = (balance s x).amt d + delta x d
  supply : t.supply = s.supply
  params : t.params = s.params

theorem subtractCoins_moved {e : Env} {a : Addr} {c : Coins} {s t : State} {u : Unit}
    (h : subtractCoins e a c s = (.ok u, t)) :
    Moved (fun x d => if x = a then - c.amt d else 0) s t ∧ (∀ d, total t d = total s d - c.amt d) ∧
    (∀ d, 0 ≤ (balance t a).amt d) ∧ (∀ d, 0 ≤ c.amt d) := by
  obtain ⟨h1, h2, rfl, -⟩ := subtractCoins_ok.1 h
  refine ⟨⟨?_, rfl, rfl⟩, ?_, ?_, (Coins.valid_iff _).1 h1⟩
  · intro x d
    rw [balance_withBalance]
    split
    · rename_i hx; subst hx; simp; omega
    · simp
  · intro d; rw [total_withBalance]; simp
  · rw [balance_withBalance, if_pos rfl]; exact (Coins.valid_iff _).1 h2

theorem addCoins_moved {e : Env} {a : Addr} {c : Coins} {s t : State} {u : Unit}
    (h : addCoins e a c s = (.ok u, t)) :
    Moved (fun x d => if x = a then c.amt d else 0) s t ∧ (∀ d, total t d = total s d + c.amt d) ∧
    (∀ d, 0 ≤ (balance t a).amt d) ∧ (∀ d, 0 ≤ c.amt d) := by
  obtain ⟨h1, h2, rfl, -⟩ := addCoins_ok.1 h
  refine ⟨⟨?_, rfl, rfl⟩, ?_, ?_, (Coins.valid_iff _).1 h1⟩
  · intro x d
    rw [balance_withBalance]
    split
    · rename_i hx; subst hx; simp
    · simp
  · intro d; rw [total_withBalance]; simp; omega
  · rw [balance_withBalance, if_pos rfl]; exact (Coins.valid_iff _).1 h2

theorem Moved.trans {f g : Addr → Denom → Int} {s t u : State} (h1 : Moved f s t) (h2 : Moved g t u) :
    Moved (fun x d => f x d + g x d) s u :=
  ⟨fun x d => by rw [h2.bal, h1.bal]; omega, h2.supply.trans h1.supply, h2.params.trans h1.params⟩

theorem Moved.congr {f g : Addr → Denom → Int} {s t : State} (h : Moved f s t) (he : ∀ x d, f x d = g x d) :
    Moved g s t := ⟨fun x d => by rw [h.bal, he], h.supply, h.params⟩

theorem Moved.refl (s : State) : Moved (fun _ _ => 0) s s := ⟨fun _ _ => by omega, rfl, rfl⟩

theorem sendCoins_moved {e : Env} {a b : Addr} {c : Coins} {s t : State} {u : Unit}
    (h : sendCoins e a b c s = (.ok u, t)) :
    Moved (fun x d => (if x = a then - c.amt d else 0) + (if x = b then c.amt d else 0)) s t ∧
    (∀ d, total t d = total s d) ∧ (∀ d, 0 ≤ c.amt d) ∧ (∀ d, c.amt d ≤ (balance s a).amt d) := by
  unfold sendCoins at h
  rw [M.bind_ok_iff] at h
  obtain ⟨_, s1, h1, h2⟩ := h
  obtain ⟨m1, t1, n1, v1⟩ := subtractCoins_moved h1
  obtain ⟨m2, t2, -, -⟩ := addCoins_moved h2
  refine ⟨m1.trans m2, fun d => by rw [t2, t1]; omega, v1, ?_⟩
  intro d
  have := n1 d
  rw [m1.bal] at this
  simp at this; omega

/-- Non-negative balances and supply equal to the sum of the balances. -/
structure WF (s : State) : Prop where
  nonneg : ∀ a d, 0 ≤ (balance s a).amt d
  supply : ∀ d, s.supply.amt d = total s d

/-- All balances are non-negative. -/
def NonNeg (s : State) : Prop := ∀ a d, 0 ≤ (balance s a).amt d

theorem setBalance_nonneg (e : Env) (a : Addr) (c : Coins) : M.Preserves NonNeg (setBalance e a c) := by
  intro s hs
  rw [setBalance_apply]
  split
  · rename_i hc
    intro x d
    simp only [balance_withBalance]
    split
    · exact (Coins.valid_iff c).1 hc d
    · exact hs x d
  · exact hs

theorem subtractCoins_nonneg (e : Env) (a : Addr) (c : Coins) : M.Preserves NonNeg (subtractCoins e a c) :=
  .bind (.errIf _) fun _ => .bind .get fun _ => .bind (.errIf _) fun _ => setBalance_nonneg e a _

theorem addCoins_nonneg (e : Env) (a : Addr) (c : Coins) : M.Preserves NonNeg (addCoins e a c) :=
  .bind (.errIf _) fun _ => .bind .get fun _ => .bind (.panicIf _) fun _ => setBalance_nonneg e a _

theorem sendCoins_nonneg (e : Env) (a b : Addr) (c : Coins) : M.Preserves NonNeg (sendCoins e a b c) :=
  .bind (subtractCoins_nonneg e a c) fun _ => addCoins_nonneg e b c

theorem inflate_nonneg (c : Coins) : M.Preserves NonNeg (inflate c) := .modify fun _ h => h

theorem deflate_nonneg (c : Coins) : M.Preserves NonNeg (deflate c) := by
  intro s hs
  unfold deflate
  simp only [M.bind_apply, M.get_apply]
  cases h : (s.supply.sub c).valid <;> simp <;> exact hs

theorem burnAccCoins_nonneg (e : Env) (a : Addr) (c : Coins) : M.Preserves NonNeg (burnAccCoins e a c) :=
  .bind (subtractCoins_nonneg e a c) fun _ => deflate_nonneg c

theorem inputOutputCoins_nonneg (e : Env) (i o : List InOut) : M.Preserves NonNeg (inputOutputCoins e i o) :=
  .bind (.errIf _) fun _ => .bind (.forEach fun _ _ => subtractCoins_nonneg e _ _) fun _ =>
    .forEach fun _ _ => addCoins_nonneg e _ _

theorem payTxFee_nonneg (e : Env) (a : Addr) (c : Coins) : M.Preserves NonNeg (payTxFee e a c) := by
  refine .bind .get fun b => .bind (.orPanic _) fun fee => ?_
  split
  · exact .pure _
  · exact .bind (sendCoins_nonneg e a _ _) fun _ => .pure _

theorem mintCoins_nonneg (e : Env) (a : Addr) (mi : Bool) (c : Coins) : M.Preserves NonNeg (mintCoins e a mi c) :=
  .bind (.panicIf _) fun _ => .bind (addCoins_nonneg e a c) fun _ => inflate_nonneg c

theorem burnCoins_nonneg (e : Env) (a : Addr) (bu : Bool) (c : Coins) : M.Preserves NonNeg (burnCoins e a bu c) :=
  .bind (.panicIf _) fun _ => .ignoreErr (burnAccCoins_nonneg e a c)

theorem send_nonneg (e : Env) (m : MsgSend) : M.Preserves NonNeg (send e m) :=
  .bind (.errIf _) fun _ => .bind (.errIf _) fun _ => .bind (.errIf _) fun _ => .bind (.errIf _) fun _ =>
  .bind (.errIf _) fun _ => .bind .get fun _ => .bind (.panicIf _) fun _ => .bind (.errIf _) fun _ =>
  .bind (.errIf _) fun _ => .bind (payTxFee_nonneg e _ _) fun _ => sendCoins_nonneg e _ _ _

theorem burn_nonneg (e : Env) (a : Addr) (n : Nat) : M.Preserves NonNeg (burn e a n) :=
  .bind (.errIf _) fun _ => .bind (.panicIf _) fun _ => burnAccCoins_nonneg e a _

/-! the supply equation -/

/-- Supply = sum of balances, in every denomination. -/
def SupplyEq (s : State) : Prop := ∀ d, s.supply.amt d = total s d

/-- A successful run changes recorded supply and sum of balances by the same amount. -/
def Balanced {α : Type} (m : M State α) : Prop :=
  ∀ s t a, m s = (.ok a, t) → ∀ d, t.supply.amt d - total t d = s.supply.amt d - total s d

theorem sendCoins_balanced (e : Env) (a b : Addr) (c : Coins) : Balanced (sendCoins e a b c) := by
  intro s t u h d
  obtain ⟨m, tt, -⟩ := sendCoins_moved h
  rw [m.supply, tt]

theorem forEach_subtract {e : Env} {l : List InOut} {s t : State} {u : Unit}
    (h : M.forEach l (fun x => subtractCoins e x.addr x.coins) s = (.ok u, t)) :
    Moved (fun x d => - (l.map (fun i => if x = i.addr then i.coins.amt d else 0)).sum) s t ∧
    (∀ d, total t d = total s d - (l.map (fun i => i.coins.amt d)).sum) := by
  induction l generalizing s with
  | nil =>
    simp at h; subst h
    exact ⟨(Moved.refl s).congr (by simp), by simp⟩
  | cons a l ih =>
    rw [M.forEach_cons, M.bind_ok_iff] at h
    obtain ⟨_, s1, h1, h2⟩ := h
    obtain ⟨m1, t1, -, -⟩ := subtractCoins_moved h1
    obtain ⟨m2, t2⟩ := ih h2
    refine ⟨(m1.trans m2).congr ?_, ?_⟩
    · intro x d; simp only [List.map_cons, List.sum_cons]; split <;> omega
    · intro d; rw [t2, t1]; simp only [List.map_cons, List.sum_cons]; omega

theorem forEach_add {e : Env} {l : List InOut} {s t : State} {u : Unit}
    (h : M.forEach l (fun x => addCoins e x.addr x.coins) s = (.ok u, t)) :
    Moved (fun x d => (l.map (fun i => if x = i.addr then i.coins.amt d else 0)).sum) s t ∧
    (∀ d, total t d = total s d + (l.map (fun i => i.coins.amt d)).sum) := by
  induction l generalizing s with
  | nil =>
    simp at h; subst h
    exact ⟨(Moved.refl s).congr (by simp), by simp⟩
  | cons a l ih =>
    rw [M.forEach_cons, M.bind_ok_iff] at h
    obtain ⟨_, s1, h1, h2⟩ := h
    obtain ⟨m1, t1, -, -⟩ := addCoins_moved h1
    obtain ⟨m2, t2⟩ := ih h2
    refine ⟨(m1.trans m2).congr ?_, ?_⟩
    · intro x d; simp only [List.map_cons, List.sum_cons]
    · intro d; rw [t2, t1]; simp only [List.map_cons, List.sum_cons]; omega

theorem foldl_coins (l : List InOut) (c : Coins) (d : Denom) :
    (l.foldl (fun acc x => acc.add x.coins) c).amt d = c.amt d + (l.map (fun i => i.coins.amt d)).sum := by
  induction l generalizing c with
  | nil => simp
  | cons a l ih => rw [List.foldl_cons, ih]; simp; omega

theorem totalCoins_amt (l : List InOut) (d : Denom) :
    (totalCoins l).amt d = (l.map (fun i => i.coins.amt d)).sum := by
  unfold totalCoins; rw [foldl_coins]; simp

theorem inputOutputCoins_moved {e : Env} {i o : List InOut} {s t : State} {u : Unit}
    (h : inputOutputCoins e i o s = (.ok u, t)) :
    Moved (fun x d => (o.map (fun k => if x = k.addr then k.coins.amt d else 0)).sum
        - (i.map (fun k => if x = k.addr then k.coins.amt d else 0)).sum) s t ∧
    (∀ d, total t d = total s d) ∧ validateInputsOutputs i o = true := by
  unfold inputOutputCoins at h
  rw [M.bind_ok_iff] at h
  obtain ⟨_, s1, h1, h2⟩ := h
  obtain ⟨hv, rfl⟩ := M.errIf_ok_iff.1 h1
  simp only [Bool.not_eq_false'] at hv
  rw [M.bind_ok_iff] at h2
  obtain ⟨_, s2, h3, h4⟩ := h2
  obtain ⟨m1, t1⟩ := forEach_subtract h3
  obtain ⟨m2, t2⟩ := forEach_add h4
  refine ⟨(m1.trans m2).congr (fun x d => by omega), ?_, hv⟩
  intro d
  have : totalCoins i = totalCoins o := by
    unfold validateInputsOutputs at hv; simp at hv; exact hv.2
  have h5 := totalCoins_amt i d
  rw [this, totalCoins_amt] at h5
  rw [t2, t1]; omega

theorem payTxFee_moved {e : Env} {a : Addr} {c : Coins} {s t : State} {fee : Int}
    (h : payTxFee e a c s = (.ok fee, t)) :
    Moved (fun x d => (if x = a then - (Coins.ofMain fee).amt d else 0)
        + (if x = e.splitCollector then (Coins.ofMain fee).amt d else 0)) s t ∧
    (∀ d, total t d = total s d) ∧ txFeeOf? s.params c = some fee ∧ 0 ≤ fee ∧
    (fee ≠ 0 → fee ≤ (balance s a).main) := by
  unfold payTxFee at h
  rw [M.bind_ok_iff] at h
  obtain ⟨b, s1, h1, h2⟩ := h
  simp only [M.get_apply, Prod.mk.injEq, Res.ok.injEq] at h1
  obtain ⟨rfl, rfl⟩ := h1
  rw [M.bind_ok_iff] at h2
  obtain ⟨f, s2, h3, h4⟩ := h2
  obtain ⟨h3, rfl⟩ := M.orPanic_ok_iff.1 h3
  split at h4
  · rename_i hf
    simp only [M.pure_apply, Prod.mk.injEq, Res.ok.injEq] at h4
    obtain ⟨rfl, rfl⟩ := h4
    subst hf
    refine ⟨(Moved.refl _).congr ?_, fun _ => rfl, h3, le_refl _, fun h => absurd rfl h⟩
    intro x d; simp [Coins.amt_ofMain]
  · rw [M.bind_ok_iff] at h4
    obtain ⟨_, s3, h5, h6⟩ := h4
    simp only [M.pure_apply, Prod.mk.injEq, Res.ok.injEq] at h6
    obtain ⟨rfl, rfl⟩ := h6
    obtain ⟨m, tt, v, l⟩ := sendCoins_moved h5
    refine ⟨m, tt, h3, ?_, fun _ => ?_⟩
    · have := v .main; simpa [Coins.amt_ofMain] using this
    · have := l .main; rw [Coins.amt_ofMain] at this; simpa [Coins.amt] using this

theorem burnAccCoins_spec {e : Env} {a : Addr} {c : Coins} {s t : State} {u : Unit}
    (h : burnAccCoins e a c s = (.ok u, t)) :
    (∀ x d, (balance t x).amt d = (balance s x).amt d - if x = a then c.amt d else 0) ∧
    (∀ d, t.supply.amt d = s.supply.amt d - c.amt d) ∧ t.params = s.params ∧
    (∀ d, total t d = total s d - c.amt d) ∧ (∀ d, c.amt d ≤ (balance s a).amt d) ∧ (∀ d, 0 ≤ c.amt d) := by
  unfold burnAccCoins at h
  rw [M.bind_ok_iff] at h
  obtain ⟨_, s1, h1, h2⟩ := h
  obtain ⟨m1, t1, n1, v1⟩ := subtractCoins_moved h1
  unfold deflate at h2
  simp only [M.bind_apply, M.get_apply] at h2
  cases hv : (s1.supply.sub c).valid
  · simp [hv] at h2
  · simp [hv] at h2
    subst h2
    refine ⟨?_, ?_, m1.params, t1, ?_, v1⟩
    · intro x d; have := m1.bal x d
      show (balance s1 x).amt d = _
      rw [this]; split <;> omega
    · intro d; simp [m1.supply]
    · intro d; have := n1 d; rw [m1.bal] at this; simp at this; omega

theorem mintCoins_spec {e : Env} {a : Addr} {mi : Bool} {c : Coins} {s t : State} {u : Unit}
    (h : mintCoins e a mi c s = (.ok u, t)) :
    (∀ x d, (balance t x).amt d = (balance s x).amt d + if x = a then c.amt d else 0) ∧
    (∀ d, t.supply.amt d = s.supply.amt d + c.amt d) ∧ t.params = s.params ∧
    (∀ d, total t d = total s d + c.amt d) ∧ mi = true := by
  unfold mintCoins at h
  rw [M.bind_ok_iff] at h
  obtain ⟨_, s0, h0, h⟩ := h
  obtain ⟨hm, rfl⟩ := M.panicIf_ok_iff.1 h0
  rw [M.bind_ok_iff] at h
  obtain ⟨_, s1, h1, h2⟩ := h
  obtain ⟨m1, t1, n1, v1⟩ := addCoins_moved h1
  simp only [inflate, M.modify_apply, Prod.mk.injEq] at h2
  obtain ⟨-, rfl⟩ := h2
  refine ⟨m1.bal, ?_, m1.params, t1, by simpa using hm⟩
  intro d; simp [m1.supply]

end Verif.Bank
