import Verif.Chain.EnactProps

/-! C76: the theorems. -/
namespace Verif.Enact
open Verif.Util

/-- Reduces the run of a concrete kind of proposal to the success of a setter. -/
macro "enact_simp" "at" h:ident : tactic =>
  `(tactic| simp only [enact, M.get_bind_ok, M.orPanic_bind_ok, Args.price?, Args.address?, Args.minAmount?, Args.count?, Args.criteria?,
      Args.votingPower?, Args.portion?, Args.split?, Args.table?, Args.revoke?, Args.plan?, Option.some.injEq, exists_eq_left', setProfile_ok,
      setBank_ok, trySetBank_ok, setDelegating_ok, trySetDelegating_ok, setNoding_ok, setSigners_ok, scheduleUpgrade_ok, M.modify_apply,
      Prod.mk.injEq, true_and] at $h:ident)

/-- A value set is the one asked for, and nothing else changes. -/
theorem C76_sets {e : Env} {k : Kind} {x : Args} {w w' : World} {i : Item} {v : Value} (ha : asks k x = some (i, v))
    (h : enact e k x w = (.ok (), w')) :
    read w' i = v ∧ (∀ j, j ≠ i → read w' j = read w j) ∧ (∀ r, rollOf w' r = rollOf w r) ∧ validators w' = validators w ∧ rest w' = rest w := by
  unfold asks at ha
  split at ha <;> (try cases ha) <;> enact_simp at h
  all_goals obtain ⟨-, rfl⟩ := h
  all_goals refine ⟨rfl, fun j hj => ?_, fun r => ?_, rfl, rfl⟩
  all_goals (first | (cases j <;> first | rfl | exact absurd rfl hj) | (cases r <;> rfl))

/-- An account asked to be put on a list is on it, every other account is on it if it was before, and nothing else changes. -/
theorem C76_adds {e : Env} {k : Kind} {x : Args} {w w' : World} {r : Roll} {a : Addr} (ha : adds k x = some (r, a))
    (h : enact e k x w = (.ok (), w')) :
    (∀ n, n ∈ rollOf w' r ↔ n = Voting.text a ∨ n ∈ rollOf w r) ∧ (∀ q, q ≠ r → rollOf w' q = rollOf w q) ∧
      (∀ j, read w' j = read w j) ∧ validators w' = validators w ∧ rest w' = rest w := by
  unfold adds at ha
  split at ha <;> (try cases ha) <;> enact_simp at h
  all_goals obtain ⟨-, rfl⟩ := h
  all_goals refine ⟨fun n => ?_, fun q hq => ?_, fun j => ?_, rfl, rfl⟩
  all_goals (first | (cases j <;> rfl) | (cases q <;> first | rfl | exact absurd rfl hq) | skip)
  all_goals simp only [rollOf, List.mem_map, mem_addTo, Voting.append, List.mem_append, List.mem_singleton]
  all_goals constructor
  all_goals aesop

/-- An account asked to be struck off a list without repetitions is not on it any more, every other account is on it if it was before, and nothing
else changes. -/
theorem C76_strikes_partial {e : Env} {k : Kind} {x : Args} {w w' : World} {r : Roll} {a : Addr} (ha : strikes k x = some (r, a))
    (hn : (rollOf w r).Nodup) (h : enact e k x w = (.ok (), w')) :
    (∀ n, n ∈ rollOf w' r ↔ n ≠ Voting.text a ∧ n ∈ rollOf w r) ∧ (∀ q, q ≠ r → rollOf w' q = rollOf w q) ∧
      (∀ j, read w' j = read w j) ∧ validators w' = validators w ∧ rest w' = rest w := by
  have key : ∀ {l m : List Addr} {a : Addr}, (∀ b, b ∈ m ↔ b ≠ a ∧ b ∈ l) →
      ∀ n, n ∈ m.map Voting.text ↔ n ≠ Voting.text a ∧ n ∈ l.map Voting.text := by
    intro l m a hm n
    simp only [List.mem_map, hm]
    constructor
    · rintro ⟨b, ⟨h1, h2⟩, rfl⟩
      exact ⟨fun e => h1 (text_inj e), b, h2, rfl⟩
    · rintro ⟨h1, b, h2, rfl⟩
      exact ⟨b, ⟨fun e => h1 (e ▸ rfl), h2⟩, rfl⟩
  unfold strikes at ha
  split at ha <;> (try cases ha)
  case h_6 =>
    simp only [enact, M.get_bind_ok, M.orPanic_bind_ok, Args.address?, Option.some.injEq, exists_eq_left'] at h
    have hn' : w.signers.Nodup := List.Nodup.of_map _ hn
    by_cases hc : w.signers.contains a = true
    · rw [if_pos hc, setSigners_ok] at h
      obtain ⟨-, rfl⟩ := h
      refine ⟨key fun b => mem_swapRemove hn' (List.contains_iff_mem.1 hc), fun q hq => ?_, fun j => ?_, rfl, rfl⟩
      · cases q <;> first | rfl | exact absurd rfl hq
      · cases j <;> rfl
    · rw [if_neg hc, M.pure_ok] at h
      obtain ⟨-, rfl⟩ := h
      rw [List.contains_iff_mem] at hc
      exact ⟨key fun b => ⟨fun hb => ⟨fun e => hc (e ▸ hb), hb⟩, fun hb => hb.2⟩, fun _ _ => rfl, fun _ => rfl, rfl, rfl⟩
  all_goals enact_simp at h
  all_goals obtain ⟨-, rfl⟩ := h
  all_goals refine ⟨?_, fun q hq => ?_, fun j => ?_, rfl, rfl⟩
  all_goals (first | (cases j <;> rfl) | (cases q <;> first | rfl | exact absurd rfl hq) | skip)
  all_goals (first | exact key fun b => mem_removeFrom (List.Nodup.of_map _ hn) | skip)
  intro n
  simp only [rollOf, Voting.remove] at hn ⊢
  exact hn.mem_erase_iff

/-- An amnesty clears the record of every validator as C70 says and changes nothing else. -/
theorem C76_amnesty (e : Env) (x : Args) (w : World) :
    ∃ w', enact e .amnesty x w = (.ok (), w') ∧
      (∀ a, w'.noding.records.get a =
        (w.noding.records.get a).map fun i => { i with strokes := 0, jailCount := 0, score := i.score + i.strokes }) ∧
      w'.noding.queue = w.noding.queue ∧ (∀ j, read w' j = read w j) ∧ (∀ r, rollOf w' r = rollOf w r) ∧ rest w' = rest w :=
  ⟨_, rfl, Noding.C70_amnesty w.noding, rfl, fun j => by cases j <;> rfl, fun r => by cases r <;> rfl, rfl⟩

/-- A validator made a member of the staff is one, with or without a record before; all else is as before. -/
theorem C76_staff_add (e : Env) (a : Addr) (w : World) :
    ∃ w', enact e .staffAdd (.address (some a)) w = (.ok (), w') ∧
      w'.noding.records.get a = some { (w.noding.records.get a).getD {} with staff := true } ∧
      (∀ b, b ≠ a → w'.noding.records.get b = w.noding.records.get b) ∧
      w'.noding.queue = w.noding.queue ∧ (∀ j, read w' j = read w j) ∧ (∀ r, rollOf w' r = rollOf w r) ∧ rest w' = rest w := by
  refine ⟨_, rfl, ?_, ?_, ?_, ?_, ?_, ?_⟩
  all_goals simp only [Noding.addToStaff]
  · split <;> simp_all
  · intro b hb
    split <;> exact KV.get_set_ne _ _ hb
  · split <;> rfl
  · intro j; split <;> cases j <;> rfl
  · intro r; split <;> cases r <;> rfl
  · split <;> rfl

/-- What the removal from the staff keeps of the state of the validators. -/
structure Kept (a : Addr) (s t : Noding.State) : Prop where
  staff : ((t.records.get a).map Noding.Info.staff).getD false = false
  others : ∀ b, b ≠ a → t.records.get b = s.records.get b
  params : t.params = s.params
  operators : t.operators = s.operators
  proposers : t.proposers = s.proposers

theorem switchOff_kept {a : Addr} {s s1 t : Noding.State} (h : Kept a s s1) (ht : Noding.switchOff s1 a = some t) : Kept a s t := by
  unfold Noding.switchOff Noding.update at ht
  simp only [Option.bind_eq_bind, Option.bind_eq_some_iff, Option.some.injEq] at ht
  obtain ⟨i, hi, rfl⟩ := ht
  have hs := h.staff
  rw [hi] at hs
  simp only [Option.map_some, Option.getD_some] at hs
  refine ⟨?_, fun b hb => (KV.get_set_ne _ _ hb).trans (h.others b hb), h.params, h.operators, h.proposers⟩
  simp only [KV.get_set_self, Option.map_some, Option.getD_some]
  split
  · unfold Noding.leaveQueue; (repeat' split) <;> exact hs
  · exact hs

theorem onStatusUpdate_kept {e : Noding.Env} {a : Addr} {s s1 t : Noding.State} (h : Kept a s s1) (ht : Noding.onStatusUpdate e s1 a = some t) :
    Kept a s t := by
  unfold Noding.onStatusUpdate at ht
  split at ht
  · simp only [Option.bind_eq_bind, Option.bind_eq_some_iff] at ht
    obtain ⟨q, -, ht⟩ := ht
    split at ht
    · cases ht; exact h
    · exact switchOff_kept h ht
  · cases ht; exact h

theorem onStakeChanged_kept {e : Noding.Env} {a : Addr} {s s1 t : Noding.State} (h : Kept a s s1) (ht : Noding.onStakeChanged e s1 a = some t) :
    Kept a s t := by
  unfold Noding.onStakeChanged at ht
  split at ht
  · cases ht; exact h
  · rename_i i hi
    have hs := h.staff
    rw [hi] at hs
    simp only [Option.map_some, Option.getD_some] at hs
    simp only [Option.bind_eq_bind, Option.bind_eq_some_iff] at ht
    obtain ⟨q, -, x, -, ht⟩ := ht
    split at ht
    · cases ht; exact ⟨h.staff, h.others, h.params, h.operators, h.proposers⟩
    · cases ht
      refine ⟨?_, fun b hb => (KV.get_set_ne _ _ hb).trans (h.others b hb), h.params, h.operators, h.proposers⟩
      simp only [KV.get_set_self, Option.map_some, Option.getD_some]
      exact hs

theorem removeFromStaff_kept (e : Noding.Env) (s : Noding.State) (a : Addr) : Kept a s (Noding.removeFromStaff e s a) := by
  unfold Noding.removeFromStaff
  split
  · rename_i h
    exact ⟨by rw [h]; rfl, fun _ _ => rfl, rfl, rfl, rfl⟩
  · rename_i i hi
    split
    · have h1 : Kept a s { s with records := s.records.set a { i with staff := false } } :=
        ⟨by simp, fun b hb => KV.get_set_ne _ _ hb, rfl, rfl, rfl⟩
      dsimp only
      split
      · split
        · exact h1
        · rename_i s2 hs2
          have h2 := onStatusUpdate_kept h1 hs2
          cases h3 : Noding.onStakeChanged e s2 a with
          | none => exact h2
          | some t => exact onStakeChanged_kept h2 h3
      · exact h1
    · rename_i h
      exact ⟨by rw [hi]; simpa using h, fun _ _ => rfl, rfl, rfl, rfl⟩

/-- A validator removed from the staff is no member of it any more; the records of the others and everything outside the records are as before. -/
theorem C76_staff_remove (e : Env) (a : Addr) (w : World) :
    ∃ w', enact e .staffRemove (.address (some a)) w = (.ok (), w') ∧
      (∀ i, w'.noding.records.get a = some i → i.staff = false) ∧
      (∀ b, b ≠ a → w'.noding.records.get b = w.noding.records.get b) ∧
      (∀ j, read w' j = read w j) ∧ (∀ r, rollOf w' r = rollOf w r) ∧ rest w' = rest w := by
  have h := removeFromStaff_kept e.noding w.noding a
  refine ⟨_, rfl, fun i hi => ?_, h.others, fun j => ?_, fun r => ?_, ?_⟩
  · have hs := h.staff
    dsimp only at hi
    rw [hi] at hs
    exact hs
  · cases j <;> simp only [read, h.params]
  · cases r <;> rfl
  · simp only [rest, h.params, h.operators, h.proposers]

/-! ### Failure -/

/-- A setter that fails leaves everything as it was. -/
def Safe (m : M World Unit) : Prop := ∀ w, (m w).1 ≠ .ok () → (m w).2 = w

theorem safe_modify (f : World → World) : Safe (M.modify f) := fun _ h => absurd rfl h

theorem safe_panicIf {c : Bool} {m : M World Unit} (h : Safe m) : Safe (do M.panicIf c; m) := by
  cases c
  · exact h
  · exact fun _ _ => rfl

theorem safe_errIf {c : Bool} {m : M World Unit} (h : Safe m) : Safe (do M.errIf c; m) := by
  cases c
  · exact h
  · exact fun _ _ => rfl

theorem safe_orPanic {α : Type} {o : Option α} {m : α → M World Unit} (h : ∀ a, Safe (m a)) : Safe (do let a ← M.orPanic o; m a) := by
  cases o
  · exact fun _ _ => rfl
  · exact h _

theorem safe_get {m : World → M World Unit} (h : ∀ w, Safe (m w)) : Safe (do let w ← M.get; m w) := fun w => h w w

theorem safe_setBank (p : Bank.Params) : Safe (setBank p) := safe_panicIf (safe_modify _)
theorem safe_trySetBank (p : Bank.Params) : Safe (trySetBank p) := safe_orPanic fun _ => safe_errIf (safe_setBank p)
theorem safe_setDelegating (p : Delegating.Params) : Safe (setDelegating p) := safe_panicIf (safe_modify _)
theorem safe_trySetDelegating (p : Delegating.Params) : Safe (trySetDelegating p) := safe_orPanic fun _ => safe_errIf (safe_setDelegating p)
theorem safe_setNoding (p : Noding.Params) : Safe (setNoding p) := safe_get fun _ => safe_orPanic fun _ => safe_modify _
theorem safe_setProfile (p : Profile.Params) : Safe (setProfile p) := safe_panicIf (safe_modify _)
theorem safe_setSigners (l : List Addr) : Safe (setSigners l) := safe_panicIf (safe_modify _)
theorem safe_scheduleUpgrade (e : Env) (p : Plan) : Safe (scheduleUpgrade e p) := safe_get fun _ => safe_errIf (safe_modify _)
theorem safe_err : Safe M.err := fun _ _ => rfl

/-- A proposal that cannot be put into force changes nothing at all. -/
theorem C76_all_or_nothing (e : Env) (k : Kind) (x : Args) (w : World) (h : (enact e k x w).1 ≠ .ok ()) : (enact e k x w).2 = w := by
  revert w
  show Safe (enact e k x)
  refine safe_get fun w => ?_
  cases k
  case earningSignerRemove =>
    refine safe_orPanic fun a => ?_
    split
    · exact safe_setSigners _
    · exact fun _ h => absurd rfl h
  all_goals first
    | with_reducible exact safe_err
    | with_reducible exact safe_modify _
    | (refine safe_orPanic fun _ => ?_; with_reducible first
        | exact safe_modify _
        | exact safe_setProfile _
        | exact safe_setBank _
        | exact safe_trySetBank _
        | exact safe_setDelegating _
        | exact safe_trySetDelegating _
        | exact safe_setNoding _
        | exact safe_setSigners _
        | exact safe_scheduleUpgrade _ _)

/-- A proposal of a deprecated or unknown type is refused with an error, which is only logged, and changes nothing. -/
theorem C76_deprecated (e : Env) (x : Args) (w : World) (k : Kind) (hk : (∃ d, k = .deprecated d) ∨ ∃ n, k = .unknown n) :
    enact e k x w = (.err, w) := by
  rcases hk with ⟨d, rfl⟩ | ⟨n, rfl⟩ <;> rfl

/-! ### Acceptable parameters stay acceptable -/

theorem kept_params (e : Env) (a : Addr) (w : World) : (Noding.removeFromStaff e.noding w.noding a).params = w.noding.params :=
  (removeFromStaff_kept e.noding w.noding a).params

theorem addToStaff_params (s : Noding.State) (a : Addr) : (Noding.addToStaff s a).params = s.params := by
  unfold Noding.addToStaff; split <;> rfl

/-- Whatever is put into force, and whether it succeeds or not, the parameters of all modules stay ones their validators accept. -/
theorem C76_acceptable (e : Env) (k : Kind) (x : Args) {w : World} (hw : Acceptable w) : Acceptable (enact e k x w).2 := by
  by_cases h : (enact e k x w).1 = .ok ()
  swap
  · rw [C76_all_or_nothing e k x w h]; exact hw
  have h' : enact e k x w = (.ok (), (enact e k x w).2) := by rw [← h]
  generalize (enact e k x w).2 = w' at h'
  clear h
  obtain ⟨h1, h2, h3, h4, h5⟩ := hw
  cases k
  case earningSignerRemove =>
    simp only [enact, M.get_bind_ok, M.orPanic_bind_ok] at h'
    obtain ⟨a, -, h'⟩ := h'
    split at h'
    · obtain ⟨hs, rfl⟩ := setSigners_ok.1 h'
      exact ⟨h1, h2, h3, h4, hs⟩
    · obtain ⟨-, rfl⟩ := M.pure_ok.1 h'
      exact ⟨h1, h2, h3, h4, h5⟩
  case staffAdd =>
    enact_simp at h'
    obtain ⟨a, -, rfl⟩ := h'
    exact ⟨h1, h2, by rw [addToStaff_params]; exact h3, h4, h5⟩
  case staffRemove =>
    enact_simp at h'
    obtain ⟨a, -, rfl⟩ := h'
    exact ⟨h1, h2, by rw [kept_params]; exact h3, h4, h5⟩
  all_goals enact_simp at h'
  all_goals first
    | (obtain ⟨a, -, hv, rfl⟩ := h'; first
        | exact ⟨(bank_ok _).1 hv, h2, h3, h4, h5⟩
        | exact ⟨h1, hv, h3, h4, h5⟩
        | exact ⟨h1, h2, hv, h4, h5⟩
        | exact ⟨h1, h2, h3, hv, h5⟩
        | exact ⟨h1, h2, h3, h4, hv⟩
        | exact ⟨h1, h2, h3, h4, h5⟩)
    | (cases h'; done)

end Verif.Enact
