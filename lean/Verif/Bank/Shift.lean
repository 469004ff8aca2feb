import Verif.Bank.Props

/-! Composable descriptions of what a bank computation did, and sufficient conditions for success. -/
namespace Verif.Bank
open Verif.Util

/-- The balances changed by `delta`, the recorded supply by `sup`, the sum of all balances by `tot`; nothing else
changed. -/
structure Shift (delta : Addr → Denom → Int) (sup tot : Denom → Int) (s t : State) : Prop where
  bal : ∀ x d, (balance t x).amt d = (balance s x).amt d + delta x d
  supply : ∀ d, t.supply.amt d = s.supply.amt d + sup d
  tot : ∀ d, total t d = total s d + tot d
  params : t.params = s.params

theorem Shift.refl (s : State) : Shift (fun _ _ => 0) (fun _ => 0) (fun _ => 0) s s :=
  ⟨by simp, by simp, by simp, rfl⟩

theorem Shift.trans {d1 d2 : Addr → Denom → Int} {u1 u2 t1 t2 : Denom → Int} {a b c : State}
    (h : Shift d1 u1 t1 a b) (g : Shift d2 u2 t2 b c) :
    Shift (fun x d => d1 x d + d2 x d) (fun d => u1 d + u2 d) (fun d => t1 d + t2 d) a c :=
  ⟨fun x d => by rw [g.bal, h.bal]; omega, fun d => by rw [g.supply, h.supply]; omega,
   fun d => by rw [g.tot, h.tot]; omega, g.params.trans h.params⟩

theorem Shift.congr {d1 d2 : Addr → Denom → Int} {u1 u2 t1 t2 : Denom → Int} {a b : State}
    (h : Shift d1 u1 t1 a b) (hd : ∀ x d, d1 x d = d2 x d) (hu : ∀ d, u1 d = u2 d) (ht : ∀ d, t1 d = t2 d) :
    Shift d2 u2 t2 a b :=
  ⟨fun x d => by rw [h.bal, hd], fun d => by rw [h.supply, hu], fun d => by rw [h.tot, ht], h.params⟩

theorem Shift.supplyEq {d1 : Addr → Denom → Int} {u : Denom → Int} {a b : State}
    (h : Shift d1 u u a b) (hs : SupplyEq a) : SupplyEq b := fun d => by rw [h.supply, h.tot, hs]

theorem addCoins_shift {e : Env} {a : Addr} {c : Coins} {s t : State} {u : Unit} (h : addCoins e a c s = (.ok u, t)) :
    Shift (fun x d => if x = a then c.amt d else 0) (fun _ => 0) (fun d => c.amt d) s t ∧ (∀ d, 0 ≤ c.amt d) := by
  obtain ⟨m, tt, -, v⟩ := addCoins_moved h
  exact ⟨⟨m.bal, fun d => by simp [m.supply], tt, m.params⟩, v⟩

theorem subtractCoins_shift {e : Env} {a : Addr} {c : Coins} {s t : State} {u : Unit}
    (h : subtractCoins e a c s = (.ok u, t)) :
    Shift (fun x d => if x = a then - c.amt d else 0) (fun _ => 0) (fun d => - c.amt d) s t ∧ (∀ d, 0 ≤ c.amt d) ∧
    (∀ d, c.amt d ≤ (balance s a).amt d) := by
  obtain ⟨m, tt, n, v⟩ := subtractCoins_moved h
  refine ⟨⟨m.bal, fun d => by simp [m.supply], fun d => by rw [tt]; omega, m.params⟩, v, fun d => ?_⟩
  have := n d; rw [m.bal] at this; simp at this; omega

theorem sendCoins_shift {e : Env} {a b : Addr} {c : Coins} {s t : State} {u : Unit}
    (h : sendCoins e a b c s = (.ok u, t)) :
    Shift (fun x d => (if x = a then - c.amt d else 0) + (if x = b then c.amt d else 0)) (fun _ => 0) (fun _ => 0) s t ∧
    (∀ d, 0 ≤ c.amt d) ∧ (∀ d, c.amt d ≤ (balance s a).amt d) := by
  obtain ⟨m, tt, v, l⟩ := sendCoins_moved h
  exact ⟨⟨m.bal, fun d => by simp [m.supply], fun d => by simp [tt], m.params⟩, v, l⟩

theorem inflate_shift (c : Coins) (s : State) :
    Shift (fun _ _ => 0) (fun d => c.amt d) (fun _ => 0) s (inflate c s).2 := by
  refine ⟨fun x d => ?_, fun d => ?_, fun d => ?_, rfl⟩
  · simp [inflate, balance]
  · simp [inflate]
  · simp [inflate, total]

theorem deflate_apply (c : Coins) (s : State) :
    deflate c s = if (s.supply.sub c).valid then (.ok (), { s with supply := s.supply.sub c }) else (.panic, s) := by
  unfold deflate
  rw [M.bind_apply, M.get_apply]
  cases h : (s.supply.sub c).valid <;> simp [M.bind_apply, h]

theorem deflate_shift {c : Coins} {s t : State} {u : Unit} (h : deflate c s = (.ok u, t)) :
    Shift (fun _ _ => 0) (fun d => - c.amt d) (fun _ => 0) s t := by
  rw [deflate_apply] at h
  split at h
  · simp only [Prod.mk.injEq] at h
    obtain ⟨-, rfl⟩ := h
    refine ⟨fun x d => ?_, fun d => ?_, fun d => ?_, rfl⟩
    · simp [balance]
    · simp; omega
    · simp [total]
  · simp at h

/-! Sufficient conditions. -/

theorem addCoins_succ {e : Env} (he : HooksOk e) {a : Addr} {c : Coins} {s : State} (hn : NonNeg s)
    (hc : ∀ d, 0 ≤ c.amt d) : ∃ t, addCoins e a c s = (.ok (), t) := by
  refine ⟨_, addCoins_ok.2 ⟨(Coins.valid_iff c).2 hc, ?_, rfl, he _ _⟩⟩
  rw [Coins.valid_iff]
  intro d
  have := hn a d; have := hc d
  simp; omega

theorem subtractCoins_succ {e : Env} (he : HooksOk e) {a : Addr} {c : Coins} {s : State}
    (hc : ∀ d, 0 ≤ c.amt d) (hb : ∀ d, c.amt d ≤ (balance s a).amt d) : ∃ t, subtractCoins e a c s = (.ok (), t) := by
  refine ⟨_, subtractCoins_ok.2 ⟨(Coins.valid_iff c).2 hc, ?_, rfl, he _ _⟩⟩
  rw [Coins.valid_iff]
  intro d
  have := hb d
  simp; omega

/-- Not enough coins (or an invalid amount): an error, nothing changed. -/
theorem subtractCoins_fail {e : Env} {a : Addr} {c : Coins} {s : State}
    (h : ¬ ((∀ d, 0 ≤ c.amt d) ∧ ∀ d, c.amt d ≤ (balance s a).amt d)) : subtractCoins e a c s = (.err, s) := by
  rw [subtractCoins_apply, if_neg]
  intro hh
  rw [Bool.and_eq_true, Coins.valid_iff, Coins.valid_iff] at hh
  refine h ⟨hh.1, fun d => ?_⟩
  have := hh.2 d
  simp at this; omega

theorem deflate_succ {c : Coins} {s : State} (h : ∀ d, c.amt d ≤ s.supply.amt d) : ∃ t, deflate c s = (.ok (), t) := by
  have hv : (s.supply.sub c).valid = true := by
    rw [Coins.valid_iff]; intro d; have := h d; simp; omega
  exact ⟨_, by rw [deflate_apply, if_pos hv]⟩

theorem balance_le_total {s : State} (hn : NonNeg s) (a : Addr) (d : Denom) : (balance s a).amt d ≤ total s d := by
  have h := KV.part_le_sum (f := fun (_ : Nat) (c : Coins) => c.amt d) (m := s.balances) (fun k v hv => by
    have := hn k d; unfold balance at this; rw [hv] at this; simpa using this) a
  have hp : KV.part (fun (_ : Nat) (c : Coins) => c.amt d) a (s.balances.get a) = (balance s a).amt d := by
    unfold balance
    cases s.balances.get a <;> simp
  rw [hp] at h
  exact h

theorem NonNeg.shift {d1 : Addr → Denom → Int} {u t1 : Denom → Int} {a b : State} (hn : NonNeg a)
    (h : Shift d1 u t1 a b) (hd : ∀ x d, 0 ≤ d1 x d) : NonNeg b := fun x d => by
  rw [h.bal]; have := hn x d; have := hd x d; omega

end Verif.Bank
