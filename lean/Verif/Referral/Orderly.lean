import Verif.Referral.Affirm
import Verif.Referral.Retire5

/-!
Properties C58, C83 and C84 for executions in which genesis records are in order and tasks run on time (C74), so that nobody with referrals is
banished.
-/
namespace Verif.Referral

/-- What is asked of the steps after genesis: `orderlyOk`, and nobody is compressed in the midst of a line of ten levels or more. -/
def calmOk (op : Op) (s : State) : Prop := orderlyOk op s ∧ ∀ k, op = .compression k → Shallow s.store k

theorem calm_accept {op : Op} {s : State} (hs : ∀ k, Settled (infoOf s.store k)) (h : calmOk op s) : acceptOk op s := by
  obtain ⟨ho, hc⟩ := h
  cases op with
  | banish k => exact ⟨((hs k).retired ((hs k).awaiting ho)).1, trivial⟩
  | compression k => exact ⟨.inr (hc k rfl), trivial⟩
  | register c p a => exact ⟨ho, trivial⟩
  | top k => exact ho.elim
  | child p c => exact ho.elim
  | banished k f => exact ho.elim
  | times k c b d t n => exact ho.elim
  | activate k => exact ho.elim
  | _ => exact ⟨trivial, trivial⟩

theorem along_imp {ok ok' : Op → State → Prop} (h : ∀ op s, ok op s → ok' op s) : ∀ {l : List (Env × Op)} {s : State}, Along ok l s → Along ok' l s
  | [], _, _ => trivial
  | (_, _) :: _, _, hl => ⟨h _ _ hl.1, along_imp h hl.2⟩

/-- Orderly executions meet the conditions of C58, C83 and C84. -/
theorem orderly_accept {l0 l : List (Env × Op)} {s : State} (h0 : s.start) (h1 : Along acceptOk l0 s)
    (hf : ∀ k, Settled (infoOf (run l0 s).store k)) (h : Along calmOk l (run l0 s)) : Along acceptOk (l0 ++ l) s := by
  refine along_append h1 ?_
  have ht : Tally 10 (run l0 s) := Along.run (step_tally le_rfl) l0 s (start_tally h0) (along_imp (fun _ _ h => h.1) h1)
  have key : ∀ (l : List (Env × Op)) (s : State), Tally 10 s → HeldS Settled False s → Along calmOk l s → Along acceptOk l s := by
    intro l
    induction l with
    | nil => intro _ _ _ _; trivial
    | cons a l ih =>
      obtain ⟨e, op⟩ := a
      intro s ht hs h
      have ha := calm_accept hs.1 h.1
      exact ⟨ha, ih _ (step_tally le_rfl e op s ht ha.1) (step_held e op s ht.good hs h.1.1 False.elim) h.2⟩
  exact key l _ ht ⟨hf, False.elim⟩ h

/-- C58 for genesis files in which all records are in order, and executions in which tasks run on time: accounts are compressed and banished and
come back, and yet every change of balance is accepted. -/
theorem C58_orderly_partial (l0 l : List (Env × Op)) (s : State) (h0 : s.start) (hw : s.work = KV.empty) (h1 : Along acceptOk l0 s)
    (hf : ∀ k, Settled (infoOf (run l0 s).store k)) (h : Along calmOk l (run l0 s)) (e : Env)
    (he : ∀ c k, e.call c k = true) (a : Addr) (p : Purse) :
    let t := run l (run l0 s);
    (∀ c, 0 ≤ (infoOf t.store c).tot .delegated 0) → 0 ≤ p.delegated →
    (t.store.keys.map fun c => (infoOf t.store c).tot .delegated 0).sum + p.delegated < 9223372036854775808 →
    Schedule.inRange (t.now + 2 * t.day) = true → Schedule.inRange (t.now + 30 * t.day) = true →
    (∀ x, (infoOf t.store (text a)).banishmentAt = some x → Schedule.inRange x = true) →
    (setPurse e a p t).1 = .ok () := by
  intro t
  have := C58_accepted_partial (l0 ++ l) s h0 hw (orderly_accept h0 h1 hf h) e he a p
  rw [run_append] at this
  exact this

/-- C83, coins, for genesis files in which all records are in order, and executions in which tasks run on time. -/
theorem C83_orderly_partial (l0 l : List (Env × Op)) (s : State) (h0 : s.start) (h1 : Along acceptOk l0 s)
    (hf : ∀ k, Settled (infoOf (run l0 s).store k)) (h : Along calmOk l (run l0 s)) (a : Key) (d : Nat) (hd : 1 ≤ d) :
    let st := (run l (run l0 s)).store;
    st.has a = true → queryCoins st a d = some
      (((networkOf st a (min (openLines (infoOf st a).status) d)).map fun c => (infoOf st c).tot .coins 0).sum,
       ((networkOf st a (min (openLines (infoOf st a).status) d)).map fun c => (infoOf st c).tot .delegated 0).sum) := by
  intro st
  have := C83_coins_partial (l0 ++ l) s h0 (along_imp (fun _ _ h => h.1) (orderly_accept h0 h1 hf h)) a d hd
  rw [run_append] at this
  exact this

/-- C84, approval, for genesis files in which all records are in order, and executions in which tasks run on time. -/
theorem C84_orderly_partial (l0 l : List (Env × Op)) (s : State) (h0 : s.start) (hw : s.work = KV.empty) (h1 : Along acceptOk l0 s)
    (hf : ∀ k, Settled (infoOf (run l0 s).store k)) (h : Along calmOk l (run l0 s)) (e : Env)
    (he : ∀ c k, e.call c k = true) (k a b : Key) :
    let t := run l (run l0 s);
    (infoOf t.store k).referrer = some a → (infoOf t.store k).banished = false → (infoOf t.store k).transition = some b →
    (∀ c, 0 ≤ (infoOf t.store c).tot .delegated 0) →
    (t.store.keys.map fun c => (infoOf t.store c).tot .delegated 0).sum < 9223372036854775808 →
    Schedule.inRange (t.now + 2 * t.day) = true →
    ((resolveTransition e a k true t).1 = .ok () ↔ Movable t k b) := by
  intro t
  have := C84_approved_partial (l0 ++ l) s h0 hw (orderly_accept h0 h1 hf h) e he k a b
  rw [run_append] at this
  exact this

theorem calm_compression {k : Key} {s : State} (h : Shallow s.store k) : calmOk (.compression k) s :=
  ⟨trivial, fun _ hk => Op.compression.inj hk ▸ h⟩

theorem calm_of {op : Op} {s : State} (hn : (op matches .compression _) = false) (ho : orderlyOk op s) : calmOk op s :=
  ⟨ho, fun k hk => by subst hk; cases hn⟩

/-- Account 1 has a referral, lets its subscription end, is compressed, banished, comes back and subscribes again; then account 2 asks to move
below it. -/
def revived : List (Env × Op) :=
  [(fine, .register (text 1) (text 0) true), (fine, .register (text 2) (text 1) true), (fine, .expire (text 1)), (fine, .world 700 0 0 99),
   (fine, .compression (text 1)), (fine, .banish (text 1)), (fine, .comeBack (text 1)), (fine, .subscribe (text 1)),
   (fine, .request (text 2) (some (text 1)))]

/-- The hypotheses are met; account 2 may move. -/
example : plain.start ∧ plain.work = KV.empty ∧ Along acceptOk [(fine, .top (text 0))] plain ∧
    (∀ k, Settled (infoOf (run [(fine, .top (text 0))] plain).store k)) ∧ Along calmOk revived (run [(fine, .top (text 0))] plain) ∧
    (infoOf (run revived (run [(fine, .top (text 0))] plain)).store (text 2)).transition = some (text 1) ∧
    (infoOf (run revived (run [(fine, .top (text 0))] plain)).store (text 2)).referrer = some (text 0) ∧
    (infoOf (run revived (run [(fine, .top (text 0))] plain)).store (text 0)).tot .coins 1 = 2 := by
  refine ⟨rfl, rfl, ⟨⟨trivial, trivial⟩, trivial⟩, settled_of (by decide +kernel), ?_, by decide +kernel, by decide +kernel, by decide +kernel⟩
  have h1 : (infoOf (run (revived.take 5) (run [(fine, .top (text 0))] plain)).store (text 1)).banishmentAt ≠ none := by decide +kernel
  have h2 : OnTime (run (revived.take 8) (run [(fine, .top (text 0))] plain)) := onTime_of (by decide +kernel)
  have h3 : Shallow (run (revived.take 4) (run [(fine, .top (text 0))] plain)).store (text 1) := shallow_of_depth (by decide +kernel) _
  exact ⟨calm_of rfl (show text 1 ≠ text 0 by decide), calm_of rfl (show text 2 ≠ text 1 by decide), calm_of rfl trivial, calm_of rfl trivial,
    calm_compression h3, calm_of rfl h1, calm_of rfl trivial, calm_of rfl trivial, calm_of rfl h2, trivial⟩

end Verif.Referral
