import Verif.Noding.Qualify

/-! Property C101: what the query whether an account may run a validator answers, and what the answer is worth. -/
namespace Verif.Noding
open Verif.Util

/-! ### Model -/

/-- `Reason`, /repo/x/noding/keeper/keeper.go:101, 108, 114 (the zero value means that no reason is given) -/
inductive Reason | none | status | selfStake | totalStake
deriving DecidableEq, Repr

/-- keeper/query_server.go:77-97 with keeper/keeper.go:75-120, keeper/querier.go:117-139 likewise: the verdict and the reason;
`none` = error or panic. -/
def isAllowed (e : Env) (s : State) (a : Addr) : Option (Bool × Reason) := do
  let stake ← e.stake a
  let status ← e.status a
  let staff := ((s.records.get a).map Info.staff).getD false
  if !staff && decide (status < s.params.minStatus) then some (false, .status)
  else do
    let short ← if staff then some false else (uint64? (e.self a)).map fun n => decide (n < s.params.minSelf)
    if short then some (false, .selfStake)
    else do
      let few ← if staff then some false else (uint64? stake).map fun n => decide (n < s.params.minTotal)
      if few then some (false, .totalStake) else some (true, .none)

/-! ### Specification -/

/-- The first of the three minimums that is missed: status, own delegation, delegation of the network. -/
inductive Misses (e : Env) (s : State) (a : Addr) (status : Nat) (total : Int) : Reason → Prop
  | status (h : status < s.params.minStatus) : Misses e s a status total .status
  | selfStake (h : s.params.minStatus ≤ status) (h0 : 0 ≤ e.self a) (hf : e.self a ≤ 18446744073709551615)
      (hm : e.self a < s.params.minSelf) : Misses e s a status total .selfStake
  | totalStake (h : s.params.minStatus ≤ status) (hs : (s.params.minSelf : Int) ≤ e.self a) (hf : e.self a ≤ 18446744073709551615)
      (h0 : 0 ≤ total) (hf' : total ≤ 18446744073709551615) (hm : total < s.params.minTotal) : Misses e s a status total .totalStake

/-! ### Proofs -/

theorem uint64?_none {x : Int} : uint64? x = none ↔ ¬ (0 ≤ x ∧ x ≤ 18446744073709551615) := by
  unfold uint64?
  rw [show (2 : Int) ^ 64 = 18446744073709551616 from rfl]
  split <;> simp <;> omega

/-- C101, the answer: "allowed", without a reason, is said exactly of those who are on the staff list or reach all three minimums;
"not allowed" exactly of the others whose figures are known, and the reason is the first minimum missed. -/
theorem C101_answer {e : Env} {s : State} {a : Addr} {v : Bool} {r : Reason} :
    isAllowed e s a = some (v, r) ↔
      (v = true ∧ r = .none ∧ ∃ total, Qualifies e s a total) ∨
      (v = false ∧ ¬ OnStaff s a ∧ ∃ status total, e.status a = some status ∧ e.stake a = some total ∧ Misses e s a status total r) := by
  unfold isAllowed Qualifies
  cases hstake : e.stake a with
  | none => simp
  | some x =>
    cases hst : e.status a with
    | none => simp
    | some st =>
      simp only [Option.bind_eq_bind, Option.bind_some, Option.some.injEq]
      by_cases hf : OnStaff s a
      · rw [staff_iff.2 hf]
        simp only [Bool.not_true, Bool.false_and, Bool.false_eq_true, if_false, if_true, Option.some.injEq, Prod.mk.injEq]
        constructor
        · rintro ⟨rfl, rfl⟩; exact Or.inl ⟨rfl, rfl, x, rfl, st, rfl, Or.inl hf⟩
        · rintro (⟨rfl, rfl, -⟩ | ⟨-, h, -⟩)
          · exact ⟨rfl, rfl⟩
          · exact absurd hf h
      · have hf' : ((s.records.get a).map Info.staff).getD false = false := by
          cases hc : ((s.records.get a).map Info.staff).getD false with
          | false => rfl
          | true => exact absurd (staff_iff.1 hc) hf
        rw [hf']
        simp only [Bool.not_false, Bool.true_and, decide_eq_true_eq, Bool.false_eq_true, if_false]
        by_cases h1 : st < s.params.minStatus
        · rw [if_pos h1]
          simp only [Option.some.injEq, Prod.mk.injEq]
          constructor
          · rintro ⟨rfl, rfl⟩; exact Or.inr ⟨rfl, hf, st, x, rfl, rfl, .status h1⟩
          · rintro (⟨rfl, rfl, t, rfl, w, rfl, h | h⟩ | ⟨rfl, -, w, t, rfl, rfl, h⟩)
            · exact absurd h hf
            · have := h.statusOk; omega
            · cases h <;> first | exact ⟨rfl, rfl⟩ | omega
        · rw [if_neg h1]
          cases hu : uint64? (e.self a) with
          | none =>
            have hb := uint64?_none.1 hu
            simp only [Option.map_none, Option.bind_none, reduceCtorEq, false_iff]
            rintro (⟨rfl, rfl, t, rfl, w, rfl, h | h⟩ | ⟨rfl, -, w, t, rfl, rfl, h⟩)
            · exact hf h
            · exact hb h.selfFits
            · cases h <;> omega
          | some n =>
            obtain ⟨hr, hn⟩ := uint64?_some.1 hu
            simp only [Option.map_some, Option.bind_some, decide_eq_true_eq]
            by_cases h2 : n < s.params.minSelf
            · rw [if_pos h2]
              simp only [Option.some.injEq, Prod.mk.injEq]
              constructor
              · rintro ⟨rfl, rfl⟩; exact Or.inr ⟨rfl, hf, st, x, rfl, rfl, .selfStake (by omega) (by omega) (by omega) (by omega)⟩
              · rintro (⟨rfl, rfl, t, rfl, w, rfl, h | h⟩ | ⟨rfl, -, w, t, rfl, rfl, h⟩)
                · exact absurd h hf
                · have := h.selfOk; omega
                · cases h <;> first | exact ⟨rfl, rfl⟩ | omega
            · rw [if_neg h2]
              cases hv : uint64? x with
              | none =>
                have hb := uint64?_none.1 hv
                simp only [Option.map_none, Option.bind_none, reduceCtorEq, false_iff]
                rintro (⟨rfl, rfl, t, rfl, w, rfl, h | h⟩ | ⟨rfl, -, w, t, rfl, rfl, h⟩)
                · exact hf h
                · exact hb h.totalFits
                · cases h <;> omega
              | some m =>
                obtain ⟨hr2, hm⟩ := uint64?_some.1 hv
                simp only [Option.map_some, Option.bind_some, decide_eq_true_eq]
                by_cases h3 : m < s.params.minTotal
                · rw [if_pos h3]
                  simp only [Option.some.injEq, Prod.mk.injEq]
                  constructor
                  · rintro ⟨rfl, rfl⟩
                    exact Or.inr ⟨rfl, hf, st, x, rfl, rfl, .totalStake (by omega) (by omega) (by omega) (by omega) (by omega) (by omega)⟩
                  · rintro (⟨rfl, rfl, t, rfl, w, rfl, h | h⟩ | ⟨rfl, -, w, t, rfl, rfl, h⟩)
                    · exact absurd h hf
                    · have := h.totalOk; omega
                    · cases h <;> first | exact ⟨rfl, rfl⟩ | omega
                · rw [if_neg h3]
                  simp only [Option.some.injEq, Prod.mk.injEq]
                  constructor
                  · rintro ⟨rfl, rfl⟩
                    exact Or.inl ⟨rfl, rfl, x, rfl, st, rfl, Or.inr ⟨by omega, by omega, by omega, hr, hr2⟩⟩
                  · rintro (⟨rfl, rfl, -⟩ | ⟨rfl, -, w, t, rfl, rfl, h⟩)
                    · exact ⟨rfl, rfl⟩
                    · cases h <;> omega

/-- C101, what the answer is worth.  In every state of every execution from a store without an index of keys: whoever is not
told "allowed" is refused whatever key they bring; whoever is told so, is neither banned nor on already, brings a key nobody
active uses, and has less than 2^63 in their network, can switch on.  Missing for the full claim: the query looks neither at the
ban nor at the switch, see `C101_banned_allowed`. -/
theorem C101_worth_partial {s0 : State} (hs : Start s0) (h0 : s0.operators = KV.empty) {l : List (Env × Op)}
    (hsort : ∀ x ∈ l, SortOk x.1.sort) (e : Env) (a : Addr) :
    (isAllowed e (runs l s0) a ≠ some (true, .none) → ∀ k, switchOn e (runs l s0) a k = none) ∧
    (isAllowed e (runs l s0) a = some (true, .none) →
      (∀ i, (runs l s0).records.get a = some i → i.banned = false ∧ i.status = false) →
      (∀ total, e.stake a = some total → -9223372036854775808 ≤ total ∧ total ≤ 9223372036854775807) →
      ∀ k, k ≠ 0 → ¬ KeyBusy (runs l s0) k → ∃ t, switchOn e (runs l s0) a k = some t) := by
  have hx := indexed_runs hs h0 hsort
  constructor
  · intro h k
    cases hc : switchOn e (runs l s0) a k with
    | none => rfl
    | some t =>
      obtain ⟨-, -, -, total, hq, -⟩ := (C69_switch_on hx).1 ⟨t, hc⟩
      exact absurd (C101_answer.2 (Or.inl ⟨rfl, rfl, total, hq⟩)) h
  · intro h hr hb k hk hf
    rcases C101_answer.1 h with ⟨-, -, total, hq⟩ | ⟨h, -⟩
    · exact (C69_switch_on hx).2 ⟨hk, hr, hf, total, hq, hb total hq.1⟩
    · cases h

/-- The full claim fails: an account banned for life is told that it is allowed to run a validator, and refused with every
key. -/
theorem C101_banned_allowed : ∃ (s : State) (l : List (Env × Op)), Start s ∧ s.operators = KV.empty ∧ (∀ x ∈ l, SortOk x.1.sort) ∧
    isAllowed (Ex.env 9) (runs l s) 1 = some (true, .none) ∧ ∀ k, switchOn (Ex.env 9) (runs l s) 1 k = none := by
  refine ⟨Ex.start 3 0, [(Ex.env 1, .switchOn 1 71), (Ex.env 2, .byzantine 1), (Ex.env 3, .byzantine 1)], Ex.start_ok 3 0 (by decide), rfl,
    ?_, ?_, ?_⟩
  · intro x hx
    simp only [List.mem_cons, List.not_mem_nil, or_false] at hx
    rcases hx with rfl | rfl | rfl <;> exact sortBefore_ok
  · decide +kernel
  · intro k
    generalize hr : runs _ _ = r
    have hb : ((r.records.get 1).map Info.banned).getD false = true := by subst hr; decide +kernel
    unfold switchOn
    rw [if_pos hb]
    split <;> rfl

/-- The four answers: allowed; status 2 of 3; 99 of 100 of one's own; 999 of 1000 in the network; the staff is allowed anyway, and an
account outside the referral tree gets an error even on the staff. -/
example : isAllowed (Ex.env 1) (Ex.start 3 0) 1 = some (true, .none) ∧
    isAllowed (Ex.env 1 5000 2 99) (Ex.start 3 0) 1 = some (false, .status) ∧
    isAllowed (Ex.env 1 999 3 99) (Ex.start 3 0) 1 = some (false, .selfStake) ∧
    isAllowed (Ex.env 1 999 3 100) (Ex.start 3 0) 1 = some (false, .totalStake) ∧
    isAllowed (Ex.env 1 999 2 99) (addToStaff (Ex.start 3 0) 1) 1 = some (true, .none) ∧
    isAllowed { Ex.env 1 with status := fun _ => none } (addToStaff (Ex.start 3 0) 1) 1 = none := by decide +kernel

end Verif.Noding
