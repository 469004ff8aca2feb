import Verif.Bank.Props

/-! Computations that take coins from certain accounts only (for C100). -/
namespace Verif.Bank
open Verif.Util

/-- Outside `W` every account has in `c` at least the coins of each kind it had in `b`. -/
def Unharmed (W : Addr → Denom → Prop) (b c : State) : Prop := ∀ x d, ¬ W x d → (balance b x).amt d ≤ (balance c x).amt d

theorem Unharmed.refl (W : Addr → Denom → Prop) (b : State) : Unharmed W b b := fun _ _ _ => Int.le_refl _

theorem Unharmed.trans {W : Addr → Denom → Prop} {a b c : State} (h : Unharmed W a b) (g : Unharmed W b c) : Unharmed W a c :=
  fun x d hx => Int.le_trans (h x d hx) (g x d hx)

theorem Unharmed.mono {W V : Addr → Denom → Prop} {b c : State} (h : Unharmed W b c) (hv : ∀ x d, W x d → V x d) : Unharmed V b c :=
  fun x d hx => h x d fun hw => hx (hv x d hw)

/-- However the computation ends (and even if nothing is rolled back), it takes only coins in `W`; `π` says where the
bank is. -/
def Harmless {σ α : Type} (π : σ → State) (W : Addr → Denom → Prop) (m : M σ α) : Prop := ∀ s, Unharmed W (π s) (π (m s).2)

section
variable {σ α β : Type} {π : σ → State} {W : Addr → Denom → Prop}

theorem Harmless.bind {m : M σ α} {f : α → M σ β} (hm : Harmless π W m) (hf : ∀ a, Harmless π W (f a)) : Harmless π W (m >>= f) := by
  intro s
  have := hm s
  rw [M.bind_apply]
  rcases h : m s with ⟨r, s'⟩
  rw [h] at this
  cases r with
  | ok a => exact this.trans (hf a s')
  | err => exact this
  | panic => exact this

/-- The computation does not touch balances. -/
theorem Harmless.of_balances {m : M σ α} (h : ∀ s, (π (m s).2).balances = (π s).balances) : Harmless π W m := fun s x d _ => by
  unfold balance
  rw [h s]

theorem Harmless.of_same {m : M σ α} (h : ∀ s, π (m s).2 = π s) : Harmless π W m := .of_balances fun s => by rw [h s]

theorem Harmless.pure (a : α) : Harmless π W (Pure.pure a : M σ α) := .of_same fun _ => rfl
theorem Harmless.err : Harmless π W (M.err : M σ α) := .of_same fun _ => rfl
theorem Harmless.panic : Harmless π W (M.panic : M σ α) := .of_same fun _ => rfl
theorem Harmless.get : Harmless π W (M.get : M σ σ) := .of_same fun _ => rfl
theorem Harmless.errIf (c : Bool) : Harmless π W (M.errIf c : M σ Unit) := by
  cases c <;> exact .of_same fun _ => rfl
theorem Harmless.panicIf (c : Bool) : Harmless π W (M.panicIf c : M σ Unit) := by
  cases c <;> exact .of_same fun _ => rfl
theorem Harmless.orPanic (o : Option α) : Harmless π W (M.orPanic o : M σ α) := by
  cases o <;> exact .of_same fun _ => rfl
theorem Harmless.modify {f : σ → σ} (h : ∀ s, π (f s) = π s) : Harmless π W (M.modify f) := .of_same h

theorem Harmless.mono {V : Addr → Denom → Prop} {m : M σ α} (h : Harmless π W m) (hv : ∀ x d, W x d → V x d) : Harmless π V m :=
  fun s => (h s).mono hv

theorem Harmless.ignoreErr {m : M σ α} (h : Harmless π W m) : Harmless π W (M.ignoreErr m) := by
  intro s
  have := h s
  unfold M.ignoreErr
  rcases hs : m s with ⟨r, t⟩
  rw [hs] at this
  cases r <;> exact this

theorem Harmless.forEach {l : List β} {f : β → M σ Unit} (h : ∀ x ∈ l, Harmless π W (f x)) : Harmless π W (M.forEach l f) := by
  induction l with
  | nil => exact .pure ()
  | cons x l ih => exact .bind (h x (by simp)) fun _ => ih fun y hy => h y (by simp [hy])

theorem Harmless.tx {m : M σ α} (h : Harmless π W m) (s : σ) : Unharmed W (π s) (π (M.tx m s)) := by
  rcases M.tx_cases m s with ⟨x, hx⟩ | ⟨-, hx⟩
  · have := h s
    rw [hx] at this; exact this
  · rw [hx]; exact .refl _ _
end

/-! ### The functions of the bank -/

variable {W : Addr → Denom → Prop}

theorem setBalance_unharmed (e : Env) (a : Addr) (c : Coins) (s : State) (h : ∀ d, W a d ∨ (balance s a).amt d ≤ c.amt d) :
    Unharmed W s (setBalance e a c s).2 := by
  unfold setBalance
  rw [M.bind_apply]
  by_cases hv : c.valid
  · simp only [hv, Bool.not_true, M.errIf, Bool.false_eq_true, if_false]
    intro x d hx
    show (balance s x).amt d ≤ (balance (withBalance s a c) x).amt d
    rw [balance_withBalance]
    split
    · next e' =>
      subst e'
      rcases h d with h | h
      · exact absurd h hx
      · exact h
    · exact Int.le_refl _
  · simp only [hv, Bool.not_false, M.errIf, if_true]
    exact .refl _ _

theorem subtractCoins_harmless (e : Env) {a : Addr} {c : Coins} (ha : ∀ d, c.amt d ≠ 0 → W a d) : Harmless id W (subtractCoins e a c) := by
  refine .bind (.errIf _) fun _ s => ?_
  show Unharmed W s ((M.errIf (!((balance s a).sub c).valid) >>= fun _ => setBalance e a ((balance s a).sub c)) s).2
  rw [M.bind_apply]
  cases h : ((balance s a).sub c).valid with
  | false => exact .refl _ _
  | true =>
    refine setBalance_unharmed e a _ s fun d => ?_
    by_cases hd : c.amt d = 0
    · right; rw [Coins.amt_sub]; omega
    · exact .inl (ha d hd)

/-- What the coins of one kind are. -/
theorem ofMain_only {x : Int} {a : Addr} (h : W a .main) : ∀ d, (Coins.ofMain x).amt d ≠ 0 → W a d := by
  intro d hd
  cases d with
  | main => exact h
  | _ => exact absurd rfl hd

theorem addCoins_harmless (e : Env) (a : Addr) (c : Coins) : Harmless id W (addCoins e a c) := by
  intro s
  unfold addCoins
  rw [M.bind_apply]
  by_cases hv : c.valid
  · simp only [hv, Bool.not_true, M.errIf, Bool.false_eq_true, if_false]
    show Unharmed W s ((M.panicIf (!((balance s a).add c).valid) >>= fun _ => setBalance e a ((balance s a).add c)) s).2
    rw [M.bind_apply]
    by_cases hd : ((balance s a).add c).valid
    · simp only [hd, Bool.not_true, M.panicIf, Bool.false_eq_true, if_false]
      refine setBalance_unharmed e a _ s (fun d => .inr ?_)
      rw [Coins.amt_add]
      have := (Coins.valid_iff c).1 hv d
      omega
    · simp only [hd, Bool.not_false, M.panicIf, if_true]
      exact .refl _ _
  · simp only [hv, Bool.not_false, M.errIf, if_true]
    exact .refl _ _

theorem inflate_harmless (c : Coins) : Harmless id W (inflate c) := .of_balances fun _ => rfl

theorem deflate_harmless (c : Coins) : Harmless id W (deflate c) := by
  refine .of_balances fun s => ?_
  show ((M.panicIf (!(s.supply.sub c).valid) >>= fun _ => M.set { s with supply := s.supply.sub c }) s).2.balances = s.balances
  rw [M.bind_apply]
  cases (s.supply.sub c).valid <;> rfl

theorem sendCoins_harmless (e : Env) {src : Addr} {c : Coins} (h : ∀ d, c.amt d ≠ 0 → W src d) (dst : Addr) : Harmless id W (sendCoins e src dst c) :=
  .bind (subtractCoins_harmless e h) fun _ => addCoins_harmless e dst c

theorem payTxFee_harmless (e : Env) {a : Addr} (h : W a .main) (c : Coins) : Harmless id W (payTxFee e a c) := by
  refine .bind .get fun b => .bind (.orPanic _) fun fee => ?_
  split
  · exact .pure _
  · exact .bind (sendCoins_harmless e (ofMain_only h) _) fun _ => .pure _

theorem inputOutputCoins_harmless (e : Env) {ins : List InOut} (h : ∀ x ∈ ins, ∀ d, x.coins.amt d ≠ 0 → W x.addr d) (outs : List InOut) :
    Harmless id W (inputOutputCoins e ins outs) :=
  .bind (.errIf _) fun _ => .bind (.forEach fun x hx => subtractCoins_harmless e (h x hx)) fun _ =>
    .forEach fun x _ => addCoins_harmless e x.addr _

theorem mintCoins_harmless (e : Env) (a : Addr) (mi : Bool) (c : Coins) : Harmless id W (mintCoins e a mi c) :=
  .bind (.panicIf _) fun _ => .bind (addCoins_harmless e a c) fun _ => inflate_harmless c

theorem burnAccCoins_harmless (e : Env) {a : Addr} {c : Coins} (h : ∀ d, c.amt d ≠ 0 → W a d) : Harmless id W (burnAccCoins e a c) :=
  .bind (subtractCoins_harmless e h) fun _ => deflate_harmless c

theorem burnCoins_harmless (e : Env) {a : Addr} {c : Coins} (h : ∀ d, c.amt d ≠ 0 → W a d) (bu : Bool) : Harmless id W (burnCoins e a bu c) :=
  .bind (.panicIf _) fun _ => .ignoreErr (burnAccCoins_harmless e h)

theorem send_harmless (e : Env) (m : MsgSend) (h : W m.src .main) : Harmless id W (send e m) := by
  refine .bind (.errIf _) fun _ => .bind (.errIf _) fun _ => .bind (.errIf _) fun _ => .bind (.errIf _) fun _ => ?_
  by_cases hc : m.amount.delegated ≠ 0 ∨ m.amount.revoking ≠ 0 ∨ m.amount.other ≠ 0
  · exact .of_same fun s => by rw [M.bind_err (s' := s) (by simp [M.errIf, hc, M.err])]
  · refine .bind (.errIf _) fun _ =>
      .bind .get fun _ => .bind (.panicIf _) fun _ => .bind (.errIf _) fun _ => .bind (.errIf _) fun _ =>
      .bind (payTxFee_harmless e h _) fun _ => sendCoins_harmless e (fun d hd => ?_) _
    cases d with
    | main => exact h
    | delegated => exact absurd (.inl hd) hc
    | revoking => exact absurd (.inr (.inl hd)) hc
    | other => exact absurd (.inr (.inr hd)) hc

theorem burn_harmless (e : Env) {a : Addr} (h : W a .main) (n : Nat) : Harmless id W (burn e a n) :=
  .bind (.errIf _) fun _ => .bind (.panicIf _) fun _ => burnAccCoins_harmless e (ofMain_only h)

end Verif.Bank
