import Verif.Chain.Enact

/-!
Property C96: upgrades that add parameters (/repo/app/upgrade.go:259-271, 679-695, 804-820, 941-959, 968-984; x/bank/types/params.go:73-83,
111-231; x/voting/types/params.go:47-83).

A parameter store maps keys to values.  Facts about the SDK: `Subspace.Get` panics if there is nothing under the key; `SetParamSet` validates
and stores the values one after another and panics if one is refused; a panic in a handler of an upgrade undoes it and stops the chain.
-/
namespace Verif.Chain.Settings
open Verif.Util

/-! ### Model -/

/-- Keys of the parameters of the bank, x/bank/types/params.go:33-41 -/
inductive Slot
  | minSend | dust | fee | maxFee | ratios | company | blocked
deriving DecidableEq, Repr

/-- Values; the text of an account is `none` if it is not an address. -/
inductive Value
  | int (n : Int)
  | frac (x : Frac)
  | portions (proposer company : Frac)
  | account (a : Option Nat)
  | accounts (l : List (Option Nat))
deriving DecidableEq

abbrev Store := Slot → Option Value

/-- `ParamSetPairs`, x/bank/types/params.go:73-83 -/
def pairs : List Slot := [.minSend, .dust, .fee, .maxFee, .ratios, .company, .blocked]

/-- The validators, x/bank/types/params.go:145-231; `none` is a panic. -/
def accepts : Slot → Value → Option Bool
  | .minSend, .int _ => some true
  | .dust, .int n => some (decide (0 ≤ n))
  | .fee, .frac x => some (!x.isNegative)
  | .maxFee, .int n => some (decide (0 ≤ n))
  | .ratios, .portions p c =>
    if p.isNegative || c.isNegative then some false
    else do
      if ← (← p.add? c).gt? (Frac.ofInt 1) then return false
      return decide (¬ splitRatiosMaxLcm < (← splitLcm? p c))
  | .company, .account a => some a.isSome
  | .blocked, .accounts l => some (l.all Option.isSome)
  | _, _ => some false

/-- The loop over the pairs: the values of the new parameters come from the handler, the others from the store. -/
def gather (news st : Store) : List Slot → Option (List (Slot × Value))
  | [] => some []
  | p :: l => do
    let v ← (match news p with
      | some v => some v
      | none => st p)
    let r ← gather news st l
    return (p, v) :: r

/-- `SetParams`, x/bank/internal/keeper/send.go:230-232 -/
def setAll : List (Slot × Value) → Store → Option Store
  | [], st => some st
  | (p, v) :: l, st => if accepts p v = some true then setAll l fun q => if q = p then some v else st q else none

/-- A handler that adds parameters: `InitTransactionFeeParam`, `InitMaxTransactionFeeParam`,
`InitTransactionFeeSplitRatiosAndCompanyAccountParams`, `InitBlockedSendersParam` -/
def introduce (news st : Store) : Option Store := do
  let l ← gather news st pairs
  setAll l st

/-- What the four handlers add; `company` is the address written in upgrade.go:951. -/
def news242 : Store := fun p => if p = .fee then some (.frac ⟨3, 1000⟩) else none
def news244 : Store := fun p => if p = .maxFee then some (.int 10000000) else none
def news246 (company : Nat) : Store
  | .ratios => some (.portions (Frac.ofInt 1) (Frac.ofInt 0))
  | .company => some (.account (some company))
  | _ => none
def news248 : Store := fun p => if p = .blocked then some (.accounts []) else none

/-- The two parameters of voting, in hours -/
structure Periods where
  voting : Option Int
  poll : Option Int
deriving DecidableEq

/-- `InitPollPeriodParam`, upgrade.go:259-271 -/
def initPoll (s : Periods) : Option Periods :=
  match s.voting with
  | none => none
  | some v => if 1 ≤ v then some ⟨some v, some v⟩ else none

/-! ### Specification -/

/-- The store holds exactly the parameters of the list, with values that are accepted. -/
structure Holds (st : Store) (l : List Slot) : Prop where
  these : ∀ p ∈ l, ∃ v, st p = some v ∧ accepts p v = some true
  only : ∀ p, p ∉ l → st p = none

/-- The parameters before each version, as the handlers add them -/
def before242 : List Slot := [.minSend, .dust]
def before244 : List Slot := [.minSend, .dust, .fee]
def before246 : List Slot := [.minSend, .dust, .fee, .maxFee]
def before248 : List Slot := [.minSend, .dust, .fee, .maxFee, .ratios, .company]

/-! ### Proofs -/

theorem mem_pairs (p : Slot) : p ∈ pairs := by cases p <;> decide

theorem gather_some {news st : Store} : ∀ {l : List Slot}, (∀ p ∈ l, ∃ v, (news p).or (st p) = some v) →
    ∃ r, gather news st l = some r ∧ r.map Prod.fst = l ∧ ∀ x ∈ r, (news x.1).or (st x.1) = some x.2 := by
  intro l
  induction l with
  | nil => exact fun _ => ⟨[], rfl, rfl, fun _ h => by cases h⟩
  | cons p l ih =>
    intro h
    obtain ⟨r, h1, h2, h3⟩ := ih fun q hq => h q (List.mem_cons_of_mem _ hq)
    obtain ⟨v, hv⟩ := h p List.mem_cons_self
    refine ⟨(p, v) :: r, ?_, by rw [List.map_cons, h2], ?_⟩
    · unfold gather
      rw [h1]
      cases hn : news p with
      | none => rw [hn] at hv; simp only [Option.none_or] at hv; rw [hv]; rfl
      | some w => rw [hn] at hv; simp only [Option.some_or] at hv; cases hv; rfl
    · intro x hx
      rcases List.mem_cons.1 hx with rfl | hx
      · exact hv
      · exact h3 x hx

theorem gather_none {news st : Store} {p : Slot} (h : news p = none ∧ st p = none) : ∀ {l : List Slot}, p ∈ l → gather news st l = none := by
  intro l
  induction l with
  | nil => exact fun h => by cases h
  | cons q l ih =>
    intro hm
    unfold gather
    rcases List.mem_cons.1 hm with rfl | hm
    · rw [h.1, h.2]; rfl
    · rw [ih hm]
      cases (match news q with | some v => some v | none => st q) <;> rfl

theorem setAll_spec : ∀ {l : List (Slot × Value)} {st : Store}, (l.map Prod.fst).Nodup → (∀ x ∈ l, accepts x.1 x.2 = some true) →
    ∃ t, setAll l st = some t ∧ (∀ x ∈ l, t x.1 = some x.2) ∧ ∀ p, p ∉ l.map Prod.fst → t p = st p := by
  intro l
  induction l with
  | nil => exact fun _ _ => ⟨_, rfl, by intro x h; simp at h, fun _ _ => rfl⟩
  | cons x l ih =>
    obtain ⟨p, v⟩ := x
    intro st hn ha
    rw [List.map_cons, List.nodup_cons] at hn
    obtain ⟨t, h1, h2, h3⟩ := ih (st := fun q => if q = p then some v else st q) hn.2 fun x hx => ha x (List.mem_cons_of_mem _ hx)
    refine ⟨t, by unfold setAll; rw [if_pos (ha (p, v) List.mem_cons_self)]; exact h1, fun x hx => ?_, fun q hq => ?_⟩
    · rcases List.mem_cons.1 hx with rfl | hx
      · rw [h3 _ hn.1, if_pos rfl]
      · exact h2 x hx
    · rw [List.map_cons, List.mem_cons, not_or] at hq
      rw [h3 q hq.2, if_neg hq.1]

/-- C96: a handler that finds all other parameters gives the new ones their values and leaves the others alone. -/
theorem C96_adds_partial (news st : Store) (hs : ∀ p, news p = none → ∃ v, st p = some v ∧ accepts p v = some true)
    (hn : ∀ p v, news p = some v → accepts p v = some true) :
    ∃ t, introduce news st = some t ∧ ∀ p, t p = match news p with
      | some v => some v
      | none => st p := by
  obtain ⟨r, h1, h2, h3⟩ := gather_some (news := news) (st := st) (l := pairs) fun p _ => by
    cases hp : news p with
    | some v => exact ⟨v, rfl⟩
    | none => obtain ⟨v, hv, -⟩ := hs p hp; exact ⟨v, by simp [hv]⟩
  obtain ⟨t, k1, k2, -⟩ := setAll_spec (l := r) (st := st) (by rw [h2]; decide) fun x hx => by
    have := h3 x hx
    cases hp : news x.1 with
    | some v => rw [hp] at this; cases this; exact hn _ _ hp
    | none =>
      obtain ⟨v, hv, ha⟩ := hs _ hp
      rw [hp, hv] at this; cases this; exact ha
  refine ⟨t, by unfold introduce; rw [h1]; exact k1, fun p => ?_⟩
  have hp : p ∈ r.map Prod.fst := by rw [h2]; exact mem_pairs p
  obtain ⟨x, hx, rfl⟩ := List.mem_map.1 hp
  rw [k2 x hx, ← h3 x hx]
  cases news x.1 <;> rfl

/-- C96: a handler stops the chain if any other parameter is missing, whatever it is. -/
theorem C96_needs (news st : Store) (p : Slot) (h1 : news p = none) (h2 : st p = none) : introduce news st = none := by
  unfold introduce
  rw [gather_none ⟨h1, h2⟩ (mem_pairs p)]; rfl

/-- C96: version 2.4.8 turns any accepted parameters of the version before into accepted ones of its own. -/
theorem C96_blocked (st : Store) (h : Holds st before248) : ∃ t, introduce news248 st = some t ∧ Holds t pairs ∧
    (∀ p ∈ before248, t p = st p) ∧ t .blocked = some (.accounts []) := by
  obtain ⟨t, h1, h2⟩ := C96_adds_partial news248 st (fun p hp => h.these p (by
      cases p <;> first | decide | (unfold news248 at hp; simp at hp)))
    (fun p v hv => by
      unfold news248 at hv
      split at hv
      · rename_i e; subst e; cases hv; rfl
      · cases hv)
  have ho : ∀ p ∈ before248, t p = st p := fun p hp => by
    rw [h2]
    have : news248 p = none := by unfold news248; rw [if_neg]; rintro rfl; revert hp; decide
    rw [this]
  refine ⟨t, h1, ⟨fun p _ => ?_, fun p hp => absurd (mem_pairs p) hp⟩, ho, h2 _⟩
  by_cases hp : p ∈ before248
  · rw [ho p hp]; exact h.these p hp
  · have : p = .blocked := by cases p <;> first | rfl | (exfalso; revert hp; decide)
    subst this
    exact ⟨.accounts [], h2 _, rfl⟩

/-- The full claim fails: the handlers of the versions 2.4.2, 2.4.4 and 2.4.6 ask for the parameters that only later versions add, and stop
every chain that holds the parameters of the version before. -/
theorem C96_stops_violation : (∀ st, Holds st before242 → introduce news242 st = none) ∧ (∀ st, Holds st before244 → introduce news244 st = none) ∧
    (∀ company st, Holds st before246 → introduce (news246 company) st = none) :=
  ⟨fun st h => C96_needs _ st .blocked rfl (h.only _ (by decide)), fun st h => C96_needs _ st .blocked rfl (h.only _ (by decide)),
    fun c st h => C96_needs _ st .blocked rfl (h.only _ (by decide))⟩

/-- A store of the version before 2.4.8 -/
def sample : Store
  | .minSend => some (.int 1000)
  | .dust => some (.int 0)
  | .fee => some (.frac ⟨3, 1000⟩)
  | .maxFee => some (.int 10000000)
  | .ratios => some (.portions (Frac.ofInt 1) (Frac.ofInt 0))
  | .company => some (.account (some 5))
  | .blocked => none

example : Holds sample before248 := by
  refine ⟨fun p hp => ?_, fun p hp => ?_⟩
  · cases p <;> first | exact ⟨_, rfl, by decide +kernel⟩ | (exfalso; revert hp; decide)
  · cases p <;> first | rfl | (exfalso; apply hp; decide)

/-- C96: version 2.2.0 gives polls the period of votes, unless there is no accepted one. -/
theorem C96_poll (s t : Periods) : initPoll s = some t ↔ ∃ v, s.voting = some v ∧ 1 ≤ v ∧ t.voting = some v ∧ t.poll = some v := by
  obtain ⟨sv, sp⟩ := s
  obtain ⟨tv, tp⟩ := t
  unfold initPoll
  cases sv with
  | none => simp
  | some v =>
    dsimp only
    split
    · rename_i h
      simp only [Option.some.injEq, Periods.mk.injEq]
      constructor
      · rintro ⟨rfl, rfl⟩; exact ⟨v, rfl, h, rfl, rfl⟩
      · rintro ⟨w, rfl, -, rfl, rfl⟩; exact ⟨rfl, rfl⟩
    · rename_i h
      simp only [Option.some.injEq, reduceCtorEq, false_iff]
      rintro ⟨w, rfl, hw, -⟩; exact h hw

end Verif.Chain.Settings
