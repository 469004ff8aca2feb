import Verif.Referral.Actives
import Verif.Referral.Accept
import Verif.Referral.Props

/-! C57: lists of active referrals, C58: acceptance of changes of balance. -/
namespace Verif.Referral
open Relation Verif.Util

/-! ## C57 -/

/-- C57 without the order, for executions in which nobody is registered as their own referrer and the genesis file is in order. -/
theorem C57_active_lists_partial (l : List (Env × Op)) (s : State) (h0 : s.start) (h : Along activesOk l s) : ActivesMatch (run l s).store :=
  (run_listed l s h0 h).2.actives (run_listed l s h0 h).1

/-- Account 3 moves from 1 to 2, which has 4 already; then 4 becomes inactive. -/
def shuffling : List (Env × Op) :=
  [(fine, .top (text 0)), (fine, .register (text 1) (text 0) true), (fine, .register (text 2) (text 0) true),
   (fine, .register (text 3) (text 1) true), (fine, .register (text 4) (text 2) true), (fine, .register (text 5) (text 2) false),
   (fine, .request (text 3) (some (text 2))), (fine, .resolve (text 1) (text 3) true)]

theorem shuffling_ok : Along activesOk shuffling plain :=
  ⟨trivial, (show text 1 ≠ text 0 by decide), (show text 2 ≠ text 0 by decide), (show text 3 ≠ text 1 by decide),
    (show text 4 ≠ text 2 by decide), (show text 5 ≠ text 2 by decide), trivial, trivial, trivial⟩

example : plain.start ∧ Along activesOk shuffling plain ∧
    (infoOf (run shuffling plain).store (text 1)).activeReferrals = [] ∧
    (infoOf (run shuffling plain).store (text 2)).referrals = [text 4, text 5, text 3] ∧
    (infoOf (run shuffling plain).store (text 2)).activeReferrals = [text 4, text 3] := by
  refine ⟨rfl, shuffling_ok, ?_, ?_, ?_⟩ <;> decide +kernel

/-- The order of C57 fails: a referral that moves is put at the end of the list. -/
theorem C57_order_violation : ∃ (l : List (Env × Op)) (s : State), s.start ∧ Along activesOk l s ∧
    ∃ a, ¬ (infoOf (run l s).store a).activeReferrals.Pairwise (· < ·) :=
  ⟨shuffling, plain, rfl, shuffling_ok, text 2, by decide +kernel⟩

/-- The list stays in disorder when somebody becomes inactive. -/
example : (infoOf (step fine (.expire (text 1)) (run shuffling plain)).store (text 0)).activeReferrals = [text 2] ∧
    (infoOf (step fine (.expire (text 1)) (run shuffling plain)).store (text 2)).activeReferrals = [text 4, text 3] := by
  constructor <;> decide +kernel

/-! ## C58 -/

/-- What is asked of the steps: those of `totalsOk` for all ten levels (in particular nobody is compressed in the midst of a line of ten levels
or more, and nobody with referrals is banished) and statuses up to 9 in the genesis file. -/
def acceptOk (op : Op) (s : State) : Prop := totalsOk 10 op s ∧ lowOk op s

theorem totalsOk.actives {top : Nat} {op : Op} {s : State} (h : totalsOk top op s) : activesOk op s := by
  cases op <;> first | trivial | exact h | exact h.1

theorem accept_inv (l : List (Env × Op)) (s : State) (h0 : s.start) (hw : s.work = KV.empty) (h : Along acceptOk l s) :
    Tally 10 (run l s) ∧ Listed (run l s) ∧ Low (run l s) := by
  refine Along.run (P := fun s => Tally 10 s ∧ Listed s ∧ Low s) (fun e op s hs h => ?_) l s ⟨start_tally h0, start_listed h0, ?_⟩ h
  · exact ⟨step_tally le_rfl e op s hs.1 h.1, step_listed e op s hs.1.good hs.2.1 h.1.actives, step_low e op s hs.2.2 h.2⟩
  · have low : LowSt KV.empty := fun a => by rw [infoOf_of_not_has rfl]; decide
    unfold State.start at h0
    exact ⟨by rw [h0]; exact low, by rw [hw]; exact low⟩

/-- C58 for executions that meet `acceptOk`: when the callbacks of the other modules succeed, the stored delegations are not negative and add up
with the new one to less than 2⁶³, and the times involved are before 2263, then every change of the balance of an account is accepted. -/
theorem C58_accepted_partial (l : List (Env × Op)) (s : State) (h0 : s.start) (hw : s.work = KV.empty) (h : Along acceptOk l s) (e : Env)
    (he : ∀ c k, e.call c k = true) (a : Addr) (p : Purse) :
    let t := run l s
    (∀ c, 0 ≤ (infoOf t.store c).tot .delegated 0) → 0 ≤ p.delegated →
    (t.store.keys.map fun c => (infoOf t.store c).tot .delegated 0).sum + p.delegated < 9223372036854775808 →
    Schedule.inRange (t.now + 2 * t.day) = true → Schedule.inRange (t.now + 30 * t.day) = true →
    (∀ x, (infoOf t.store (text a)).banishmentAt = some x → Schedule.inRange x = true) →
    (setPurse e a p t).1 = .ok () := by
  intro t h1 h2 h3 h4 h5 h6
  obtain ⟨ht, hl, hlow⟩ := accept_inv l s h0 hw h
  have hd : ∀ u : State, u.purse = (fun b => if b = a then p else t.purse b) → u.delegated (text a) = p.delegated := by
    intro u hu
    unfold State.delegated
    rw [hu]
    show (if addrOf (text a) = a then p else _).delegated = _
    rw [if_pos (show addrOf (text a) = a from Nat.mul_div_cancel_left (n := 2) a (by decide))]
  have key : Welcome (text a) ({ t with purse := fun b => if b = a then p else t.purse b, work := t.store, calls := [] }) := by
    refine ⟨⟨⟨hlow.store, hlow.store⟩, ?_, h4⟩, ht, h1, by rw [hd _ rfl]; exact h2, by rw [hd _ rfl]; exact h3, h5, h6⟩
    intro x c hc
    have := ((hl.mem x c).1 hc).1
    cases hh : t.store.has c with
    | true => rfl
    | false =>
      have hr : (infoOf t.store c).referrer = some x := this
      rw [infoOf_of_not_has hh] at hr
      cases hr
  obtain ⟨b, u, hu⟩ := balanceBody_succeeds key
  have e0 : setPurse e a p t = (balanceBody (text a) >>= fun b => if b then commit e else pure ())
    { t with purse := fun b => if b = a then p else t.purse b, work := t.store, calls := [] } := rfl
  rw [e0, M.bind_ok hu]
  split
  · unfold commit
    rw [M.bind_ok (M.modify_apply _ u), M.bind_ok (M.get_apply _)]
    have : (!u.calls.all fun c => e.call c.1 c.2) = false := by
      rw [Bool.not_eq_false', List.all_eq_true]
      exact fun c _ => he _ _
    show (M.errIf (!u.calls.all fun c => e.call c.1 c.2) _).1 = _
    rw [this]; rfl
  · rfl

/-- Three accounts; the last one delegates, is banished after lowering its delegation, and delegates again. -/
def returning : List (Env × Op) :=
  [(fine, .top (text 0)), (fine, .child (text 0) (text 1)), (fine, .child (text 1) (text 2)), (fine, .balance 2 { delegated := 9 }),
   (fine, .balance 2 {}), (fine, .world 301 0 0 99), (fine, .banish (text 2))]

example : Along acceptOk returning plain ∧ (infoOf (run returning plain).store (text 2)).banished = true ∧
    (infoOf (run (returning ++ [(fine, .balance 2 { delegated := 7 })]) plain).store (text 2)).banished = false ∧
    (infoOf (run (returning ++ [(fine, .balance 2 { delegated := 7 })]) plain).store (text 0)).tot .delegated 1 = 7 := by
  refine ⟨?_, ?_, ?_, ?_⟩
  · exact ⟨⟨trivial, trivial⟩, ⟨⟨(show text 1 ≠ text 0 by decide), by decide +kernel⟩, trivial⟩, ⟨⟨(show text 2 ≠ text 1 by decide), by decide +kernel⟩, trivial⟩,
      ⟨trivial, trivial⟩, ⟨trivial, trivial⟩, ⟨trivial, trivial⟩, ⟨(show (infoOf _ _).referrals = [] by decide +kernel), trivial⟩, trivial⟩
  · decide +kernel
  · decide +kernel
  · decide +kernel

/-- A task for `k` is due. -/
def Due (hook : Nat) (k : Key) (s : State) : Prop :=
  ∃ t, t ≤ s.now ∧ ∃ x ∈ (s.sched.store.get t).getD [], x.handler = hook ∧ x.data = [k]

/-- Hooks run only when a task is due. -/
def dueOk : Op → State → Prop
  | .downgrade k, s => Due downgradeHook k s
  | .compression k, s => Due compressionHook k s
  | .timeout k, s => Due timeoutHook k s
  | .banish k, s => Due banishHook k s
  | _, _ => True

/-- A line of seven accounts in the genesis file.  The last one delegates; the last but one, which has no compression time, delegates and
withdraws, and is banished a month later; then it comes back. -/
def stranded : List (Env × Op) :=
  [(fine, .top (text 0)), (fine, .child (text 0) (text 1)), (fine, .child (text 1) (text 2)), (fine, .child (text 2) (text 3)),
   (fine, .child (text 3) (text 4)), (fine, .child (text 4) (text 5)), (fine, .child (text 5) (text 6)),
   (fine, .balance 6 { delegated := 7000000 }), (fine, .balance 5 { delegated := 9 }), (fine, .balance 5 {}), (fine, .world 301 0 0 99),
   (fine, .banish (text 5)), (fine, .comeBack (text 5))]

def poor : State := { plain with purse := fun _ => {} }

/-- C58 fails when an account with referrals is banished and comes back: the delegation of its referral cannot be taken back, although all
callbacks succeed, as it would become negative somewhere. -/
theorem C58_banished_parent_violation : ∃ (l : List (Env × Op)) (s : State) (a : Addr), s.start ∧ s.work = KV.empty ∧
    Along (fun op s => structureOk op s ∧ lowOk op s ∧ dueOk op s) l s ∧ ((run l s).purse a).delegated = 7000000 ∧
    (setPurse fine a {} (run l s)).1 = .err := by
  refine ⟨stranded, poor, 6, rfl, rfl, ?_, by decide +kernel, by decide +kernel⟩
  refine ⟨⟨trivial, trivial, trivial⟩, ⟨(show text 1 ≠ text 0 by decide), trivial, trivial⟩, ⟨(show text 2 ≠ text 1 by decide), trivial, trivial⟩,
    ⟨(show text 3 ≠ text 2 by decide), trivial, trivial⟩, ⟨(show text 4 ≠ text 3 by decide), trivial, trivial⟩,
    ⟨(show text 5 ≠ text 4 by decide), trivial, trivial⟩, ⟨(show text 6 ≠ text 5 by decide), trivial, trivial⟩,
    ⟨trivial, trivial, trivial⟩, ⟨trivial, trivial, trivial⟩, ⟨trivial, trivial, trivial⟩, ⟨trivial, trivial, trivial⟩, ⟨trivial, trivial, ?_⟩,
    ⟨trivial, trivial, trivial⟩, trivial⟩
  refine ⟨300, ?_, ?_⟩
  · decide +kernel
  · decide +kernel

/-- A line of twelve accounts, the first with status 5.  The last one delegates; the second is compressed. -/
def shortened : List (Env × Op) :=
  line ++ [(fine, .balance 11 { delegated := 7 }), (fine, .times (text 0) none none none none 5), (fine, .times (text 1) (some 5) none none none 1),
    (fine, .world 6 0 0 99), (fine, .compression (text 1))]

def awaiting : State := { poor with sched := ((Schedule.schedule? Schedule.State.empty 5 compressionHook [text 1]).getD Schedule.State.empty) }

/-- C58 fails after a compression: the total of the first account at level ten does not contain the delegation of the last account, which
cannot be taken back. -/
theorem C58_level_ten_violation : ∃ (l : List (Env × Op)) (s : State) (a : Addr), s.start ∧ s.work = KV.empty ∧
    Along (fun op s => structureOk op s ∧ lowOk op s ∧ dueOk op s) l s ∧ ((run l s).purse a).delegated = 7 ∧
    (setPurse fine a {} (run l s)).1 = .err := by
  refine ⟨shortened, awaiting, 11, rfl, rfl, ?_, by decide +kernel, by decide +kernel⟩
  refine ⟨⟨trivial, trivial, trivial⟩, ⟨(show text 1 ≠ text 0 by decide), trivial, trivial⟩, ⟨(show text 2 ≠ text 1 by decide), trivial, trivial⟩,
    ⟨(show text 3 ≠ text 2 by decide), trivial, trivial⟩, ⟨(show text 4 ≠ text 3 by decide), trivial, trivial⟩,
    ⟨(show text 5 ≠ text 4 by decide), trivial, trivial⟩, ⟨(show text 6 ≠ text 5 by decide), trivial, trivial⟩,
    ⟨(show text 7 ≠ text 6 by decide), trivial, trivial⟩, ⟨(show text 8 ≠ text 7 by decide), trivial, trivial⟩,
    ⟨(show text 9 ≠ text 8 by decide), trivial, trivial⟩, ⟨(show text 10 ≠ text 9 by decide), trivial, trivial⟩,
    ⟨(show text 11 ≠ text 10 by decide), trivial, trivial⟩,
    ⟨trivial, trivial, trivial⟩, ⟨trivial, (show 5 ≤ 9 by decide), trivial⟩, ⟨trivial, (show 1 ≤ 9 by decide), trivial⟩, ⟨trivial, trivial, trivial⟩,
    ⟨trivial, trivial, ?_⟩, trivial⟩
  refine ⟨5, ?_, ?_⟩
  · decide +kernel
  · decide +kernel

end Verif.Referral
