import Verif.Referral.Exact2
import Verif.Referral.Orderly

/-! Property C92: records and balances. -/
namespace Verif.Referral

/-- C92: the own amounts recorded for every account are its balances in the bank, after any execution in which the accounts named are known and the
module can take note of the changes of balance. -/
theorem C92_own_partial (l : List (Env × Op)) (s : State) (h0 : s.start) (h : Along exactOk l s) (k : Key) (hk : (run l s).store.has k = true) :
    (infoOf (run l s).store k).tot .coins 0 =
      ((run l s).purse (addrOf k)).main + ((run l s).purse (addrOf k)).delegated + ((run l s).purse (addrOf k)).revoking ∧
    (infoOf (run l s).store k).tot .delegated 0 = ((run l s).purse (addrOf k)).delegated := by
  obtain ⟨D, hb⟩ := Along.run (P := fun s => ∃ D, Ledger D s) step_ledger l s ⟨_, start_ledger h0⟩ h
  exact hb.fit.own k ((hb.fit.keys k).1 hk) fun h => h

/-- C92 with C24: the amount recorded for an account at each of the ten levels is the sum of the balances of the accounts there. -/
theorem C92_levels_partial (l : List (Env × Op)) (s : State) (h0 : s.start) (h : Along exactOk l s) (ht : Along (totalsOk 10) l s)
    (k : Key) (L : Nat) (h1 : 1 ≤ L) (h2 : L ≤ 10) :
    (infoOf (run l s).store k).tot .coins L = ((below (run l s).store k L).map fun c =>
      ((run l s).purse (addrOf c)).main + ((run l s).purse (addrOf c)).delegated + ((run l s).purse (addrOf c)).revoking).sum ∧
    (infoOf (run l s).store k).tot .delegated L = ((below (run l s).store k L).map fun c => ((run l s).purse (addrOf c)).delegated).sum := by
  have hm := C24_totals_partial 10 le_rfl l s h0 ht
  have hh : ∀ c ∈ below (run l s).store k L, (run l s).store.has c = true := fun c hc =>
    mem_keys_of_has.1 (List.mem_filter.1 hc).1
  rw [hm.levels k .coins L h1 h2, hm.levels k .delegated L h1 h2]
  exact ⟨congrArg List.sum (List.map_congr_left fun c hc => (C92_own_partial l s h0 h c (hh c hc)).1),
    congrArg List.sum (List.map_congr_left fun c hc => (C92_own_partial l s h0 h c (hh c hc)).2)⟩

/-- As `exactOk`, but that changes of balance can be taken note of is not assumed: nobody delegates a negative amount, all delegations together
are less than 2^63, and the dates to be set are before 2263. -/
def soundOk : Op → State → Prop
  | .balance _ p, s => (∀ c, s.store.has c = true → 0 ≤ (s.purse (addrOf c)).delegated) ∧ 0 ≤ p.delegated ∧
      (s.store.keys.map fun c => (s.purse (addrOf c)).delegated).sum + p.delegated < 9223372036854775808 ∧
      Schedule.inRange (s.now + 2 * s.day) = true ∧ Schedule.inRange (s.now + 30 * s.day) = true
  | op, s => exactOk op s

theorem sound_step {l : List (Env × Op)} {s : State} (h0 : s.start) (hw : s.work = KV.empty) (ha : Along acceptOk l s) (h : Along exactOk l s)
    {op : Op} (ho : soundOk op (run l s)) : exactOk op (run l s) := by
  cases op with
  | balance a p =>
    obtain ⟨D, hb⟩ := Along.run (P := fun s => ∃ D, Ledger D s) step_ledger l s ⟨_, start_ledger h0⟩ h
    have hd : ∀ c, (infoOf (run l s).store c).tot .delegated 0 = if (run l s).store.has c then ((run l s).purse (addrOf c)).delegated else 0 := by
      intro c
      cases hc : (run l s).store.has c with
      | true => exact (hb.fit.own c ((hb.fit.keys c).1 hc) fun h => h).2
      | false => rw [infoOf_of_not_has hc]; rfl
    obtain ⟨o1, o2, o3, o4, o5⟩ := ho
    refine C58_accepted_partial l s h0 hw ha obliging (fun _ _ => rfl) a p ?_ o2 ?_ o4 o5 ?_
    · intro c
      rw [hd c]
      split
      · exact o1 c ‹_›
      · exact le_rfl
    · have : ((run l s).store.keys.map fun c => (infoOf (run l s).store c).tot .delegated 0) =
          (run l s).store.keys.map fun c => ((run l s).purse (addrOf c)).delegated :=
        List.map_congr_left fun c hc => by rw [hd c, if_pos (mem_keys_of_has.1 hc)]
      rw [this]; exact o3
    · intro x hx
      cases hc : (run l s).store.has (text a) with
      | true => exact (hb.fit.kin _ ((hb.fit.keys _).1 hc)).date x hx
      | false => rw [infoOf_of_not_has hc] at hx; cases hx
  | _ => exact ho

theorem sound_exact {s : State} (h0 : s.start) (hw : s.work = KV.empty) : ∀ (l' l : List (Env × Op)), Along acceptOk l s → Along exactOk l s →
    Along acceptOk l' (run l s) → Along soundOk l' (run l s) → Along exactOk l' (run l s) := by
  intro l'
  induction l' with
  | nil => intro _ _ _ _ _; trivial
  | cons x l' ih =>
    obtain ⟨e, op⟩ := x
    intro l h1 h2 h3 h4
    have h5 := sound_step h0 hw h1 h2 h4.1
    refine ⟨h5, ?_⟩
    have e1 : run (l ++ [(e, op)]) s = step e op (run l s) := run_append l _ s
    have := ih (l ++ [(e, op)]) (along_append h1 ⟨h3.1, trivial⟩) (along_append h2 ⟨h5, trivial⟩) (by rw [e1]; exact h3.2) (by rw [e1]; exact h4.2)
    rw [e1] at this; exact this

/-- C92 and C58: under conditions on amounts and dates only, every change of balance is taken note of, so that records and balances agree. -/
theorem C92_sound_partial (l : List (Env × Op)) (s : State) (h0 : s.start) (hw : s.work = KV.empty) (ha : Along acceptOk l s) (h : Along soundOk l s)
    (k : Key) :
    ((run l s).store.has k = true →
      (infoOf (run l s).store k).tot .coins 0 =
        ((run l s).purse (addrOf k)).main + ((run l s).purse (addrOf k)).delegated + ((run l s).purse (addrOf k)).revoking ∧
      (infoOf (run l s).store k).tot .delegated 0 = ((run l s).purse (addrOf k)).delegated) ∧
    ∀ L, 1 ≤ L → L ≤ 10 →
      (infoOf (run l s).store k).tot .coins L = ((below (run l s).store k L).map fun c =>
        ((run l s).purse (addrOf c)).main + ((run l s).purse (addrOf c)).delegated + ((run l s).purse (addrOf c)).revoking).sum ∧
      (infoOf (run l s).store k).tot .delegated L = ((below (run l s).store k L).map fun c => ((run l s).purse (addrOf c)).delegated).sum := by
  have he : Along exactOk l s := sound_exact h0 hw l [] trivial trivial ha h
  exact ⟨C92_own_partial l s h0 he k, C92_levels_partial l s h0 he (along_imp (fun _ _ h => h.1) ha) k⟩

/-- Nobody known is spelled in another way, nobody unknown is anybody's referrer, referral or destination. -/
theorem C92_known_partial (l : List (Env × Op)) (s : State) (h0 : s.start) (h : Along exactOk l s) (k : Key) (hk : (run l s).store.has k = true) :
    text (addrOf k) = k ∧ (∀ p, (infoOf (run l s).store k).referrer = some p → (run l s).store.has p = true) ∧
    (∀ q ∈ (infoOf (run l s).store k).referrals, (run l s).store.has q = true) ∧
    (∀ b, (infoOf (run l s).store k).transition = some b → (run l s).store.has b = true) := by
  obtain ⟨D, hb⟩ := Along.run (P := fun s => ∃ D, Ledger D s) step_ledger l s ⟨_, start_ledger h0⟩ h
  have hd := (hb.fit.keys k).1 hk
  have hkin := hb.fit.kin k hd
  exact ⟨hb.usual k hd, fun p hp => (hb.fit.keys p).2 (hkin.referrer p hp), fun q hq => (hb.fit.keys q).2 (hkin.referrals q hq),
    fun b hb' => (hb.fit.keys b).2 (hkin.transition b hb')⟩

/-- Accounts move coins, delegate, are compressed, banished, come back by delegating, and move. -/
def trade : List (Env × Op) :=
  sample.take 7 ++ [(fine, .register (text 3) (text 0) true), (fine, .balance 2 { main := 30, delegated := 40 }),
    (fine, .request (text 2) (some (text 3))), (fine, .resolve (text 0) (text 2) true), (fine, .balance 1 { main := 5, delegated := 3 }),
    (fine, .balance 2 { main := 7, delegated := 20, revoking := 20 })]

theorem trade_exact : Along exactOk trade plain := by
  have known : ∀ (n : Nat) (k : Key), (run (trade.take n) plain).store.has k = true → (run (trade.take n) plain).store.has k = true := fun _ _ h => h
  refine ⟨(by decide : text (addrOf (text 0)) = text 0), ⟨known 1 (text 0) (by decide +kernel), by decide⟩, ⟨known 2 (text 1) (by decide +kernel), by decide⟩,
    known 3 (text 1) (by decide +kernel), trivial, known 5 (text 1) (by decide +kernel), known 6 (text 1) (by decide +kernel),
    ⟨known 7 (text 0) (by decide +kernel), by decide⟩, ?_, ⟨known 9 (text 2) (by decide +kernel), fun b hb => ?_⟩,
    known 10 (text 2) (by decide +kernel), ?_, ?_, trivial⟩
  · show (setPurse obliging 2 { main := 30, delegated := 40 } (run (trade.take 8) plain)).1 = .ok ()
    decide +kernel
  · cases hb; exact known 9 (text 3) (by decide +kernel)
  · show (setPurse obliging 1 { main := 5, delegated := 3 } (run (trade.take 11) plain)).1 = .ok ()
    decide +kernel
  · show (setPurse obliging 2 { main := 7, delegated := 20, revoking := 20 } (run (trade.take 12) plain)).1 = .ok ()
    decide +kernel

example : plain.start ∧ Along exactOk trade plain ∧ Along (totalsOk 10) trade plain ∧ (run trade plain).store.has (text 2) = true ∧
    (infoOf (run trade plain).store (text 2)).tot .coins 0 = 47 ∧ (infoOf (run trade plain).store (text 0)).tot .coins 1 = 9 ∧
    (infoOf (run trade plain).store (text 0)).tot .delegated 2 = 20 ∧ (infoOf (run trade plain).store (text 2)).referrer = some (text 3) := by
  refine ⟨rfl, trade_exact, ?_, by decide +kernel, by decide +kernel, by decide +kernel, by decide +kernel, by decide +kernel⟩
  exact ⟨trivial, (show text 1 ≠ text 0 by decide), (show text 2 ≠ text 1 by decide), trivial, trivial, .inr (shallow_of_depth (by decide +kernel) _),
    by show (infoOf _ _).referrals = []; decide +kernel, (show text 3 ≠ text 0 by decide), trivial, trivial, trivial, trivial, trivial, trivial⟩

theorem trade_sound : Along acceptOk trade plain ∧ Along soundOk trade plain := by
  have h := trade_exact
  constructor
  · exact ⟨⟨trivial, trivial⟩, ⟨(show text 1 ≠ text 0 by decide), trivial⟩, ⟨(show text 2 ≠ text 1 by decide), trivial⟩, ⟨trivial, trivial⟩, ⟨trivial, trivial⟩,
      ⟨.inr (shallow_of_depth (by decide +kernel) _), trivial⟩, ⟨by show (infoOf _ _).referrals = []; decide +kernel, trivial⟩,
      ⟨(show text 3 ≠ text 0 by decide), trivial⟩, ⟨trivial, trivial⟩, ⟨trivial, trivial⟩, ⟨trivial, trivial⟩, ⟨trivial, trivial⟩, ⟨trivial, trivial⟩, trivial⟩
  · obtain ⟨h0, h1, h2, h3, h4, h5, h6, h7, -, h9, h10, -, -, -⟩ := h
    have mild : ∀ (n : Nat), ((run (trade.take n) plain).store.keys.all fun c => decide (0 ≤ ((run (trade.take n) plain).purse (addrOf c)).delegated)) = true →
        ∀ c, (run (trade.take n) plain).store.has c = true → 0 ≤ ((run (trade.take n) plain).purse (addrOf c)).delegated := fun n h c hc =>
      of_decide_eq_true (List.all_eq_true.1 h c (mem_keys_of_has.2 hc))
    have sums : ∀ (n : Nat) (a : Addr) (p : Purse), 0 ≤ p.delegated →
        ((run (trade.take n) plain).store.keys.all fun c => decide (0 ≤ ((run (trade.take n) plain).purse (addrOf c)).delegated)) = true →
        ((run (trade.take n) plain).store.keys.map fun c => ((run (trade.take n) plain).purse (addrOf c)).delegated).sum + p.delegated < 9223372036854775808 →
        Schedule.inRange ((run (trade.take n) plain).now + 2 * (run (trade.take n) plain).day) = true →
        Schedule.inRange ((run (trade.take n) plain).now + 30 * (run (trade.take n) plain).day) = true →
        soundOk (.balance a p) (run (trade.take n) plain) := fun n a p h1 h2 h3 h4 h5 => ⟨mild n h2, h1, h3, h4, h5⟩
    exact ⟨h0, h1, h2, h3, h4, h5, h6, h7, sums 8 _ _ (by decide) (by decide +kernel) (by decide +kernel) (by decide +kernel) (by decide +kernel), h9, h10,
      sums 11 _ _ (by decide) (by decide +kernel) (by decide +kernel) (by decide +kernel) (by decide +kernel),
      sums 12 _ _ (by decide) (by decide +kernel) (by decide +kernel) (by decide +kernel) (by decide +kernel), trivial⟩

example : plain.start ∧ plain.work = KV.empty ∧ Along acceptOk trade plain ∧ Along soundOk trade plain := ⟨rfl, rfl, trade_sound.1, trade_sound.2⟩

/-- An account is registered under one that is not registered itself. -/
def stranger : List (Env × Op) := [(fine, .top (text 0)), (fine, .balance 11 { main := 7 }), (fine, .register (text 1) (text 11) true)]

/-- C92 fails when an account is registered under one that is not registered itself, which is accepted: a record without coins appears for the
referrer, who owns some, and then cannot be registered. -/
theorem C92_stranger_violation : ∃ (l : List (Env × Op)) (s : State) (k : Key), s.start ∧ Along structureOk l s ∧ Along bodiesOk l s ∧
    text (addrOf k) = k ∧ (run l s).store.has k = true ∧ (infoOf (run l s).store k).tot .coins 0 = 0 ∧ ((run l s).purse (addrOf k)).main = 7 ∧
    M.succeeds (register fine k (text 0) true) (run l s) = false := by
  refine ⟨stranger, plain, text 11, rfl, ⟨trivial, trivial, (show text 1 ≠ text 11 by decide), trivial⟩, ⟨trivial, ?_, trivial, trivial⟩, by decide, ?_⟩
  · show (setPurse obliging 11 { main := 7 } (run [(fine, .top (text 0))] plain)).1 = .ok ()
    decide +kernel
  · decide +kernel

/-- An account moves to one that is not registered. -/
def abroad : List (Env × Op) := [(fine, .top (text 0)), (fine, .balance 11 { main := 7 }), (fine, .register (text 1) (text 0) true),
  (fine, .request (text 1) (some (text 11))), (fine, .resolve (text 0) (text 1) true)]

/-- C92 fails in the same way when an account moves to one that is not registered. -/
theorem C92_abroad_violation : ∃ (l : List (Env × Op)) (s : State) (k : Key), s.start ∧ Along structureOk l s ∧ Along bodiesOk l s ∧
    text (addrOf k) = k ∧ (run l s).store.has k = true ∧ (infoOf (run l s).store k).tot .coins 0 = 0 ∧ ((run l s).purse (addrOf k)).main = 7 ∧
    M.succeeds (register fine k (text 0) true) (run l s) = false := by
  refine ⟨abroad, plain, text 11, rfl, ⟨trivial, trivial, (show text 1 ≠ text 0 by decide), trivial, trivial, trivial⟩, ⟨trivial, ?_, trivial, trivial, trivial, trivial⟩, by decide, ?_⟩
  · show (setPurse obliging 11 { main := 7 } (run [(fine, .top (text 0))] plain)).1 = .ok ()
    decide +kernel
  · decide +kernel
end Verif.Referral
