import Verif.Referral.Fees
import Verif.Referral.Status

/-! Property C67: exactly who gets which part of the commission of a delegation. -/
namespace Verif.Referral
open Verif.Util

/-! ### Specification -/

/-- What a validator of this status may claim from a delegation `d + 1` lines below, in permille. -/
def tariff (status d : Nat) : Nat :=
  if 9 ≤ status ∧ d < 20 then 6
  else if 7 ≤ status ∧ d < 14 then 5
  else if 6 ≤ status ∧ d < 12 then 4
  else if 5 ≤ status ∧ d < 10 then 3
  else if 4 ≤ status ∧ d < 6 then 2
  else if 3 ≤ status ∧ d < 4 then 1
  else 0

/-- What the ancestor of `k` at distance `d` may claim; ancestors who are no active validators may not claim anything. -/
def claim (st : KV Nat Info) (validator : Addr → Option Bool) (k : Key) (d : Nat) : Nat :=
  match ancestor st k d with
  | some a => if validator (addrOf a) = some true then tariff (infoOf st a).status d else 0
  | none => 0

/-- The highest claim of the ancestors nearer than `d` -/
def highestClaim (st : KV Nat Info) (validator : Addr → Option Bool) (k : Key) : Nat → Nat
  | 0 => 0
  | d + 1 => max (highestClaim st validator k d) (claim st validator k d)

/-- The payment to the ancestor at distance `d`: what it may claim beyond the claims of the nearer ones. -/
def payment (st : KV Nat Info) (validator : Addr → Option Bool) (k : Key) (d : Nat) : Option (Key × ℚ) :=
  match ancestor st k d with
  | some a => if highestClaim st validator k d < claim st validator k d then
      some (a, ((claim st validator k d : ℚ) - highestClaim st validator k d) / 1000) else none
  | none => none

/-! ### Proofs -/

theorem rowOf_tariff (status d : Nat) : given (rowOf status d 6) = tariff status d := by
  simp only [rowOf, ladder, List.getElem?_cons_succ, List.getElem?_cons_zero]
  unfold tariff
  repeat' split
  all_goals rfl

theorem above_iff {best : Option Nat} {j : Nat} : above best j = true ↔ given best < j + 1 := by
  cases best with
  | none => simp [above, given]
  | some b => simp [above, given]

theorem ancestor_none {st : KV Nat Info} {k : Key} {i : Nat} (h : ancestor st k i = none) : ∀ n, ancestor st k (i + n) = none := by
  intro n
  induction n with
  | zero => exact h
  | succ n ih =>
    show (ancestor st k (i + n)).bind _ = none
    rw [ih]; rfl

theorem feesLoop_exact {st : KV Nat Info} {validator : Addr → Option Bool} {k : Key} :
    ∀ (n i : Nat) (best : Option Nat) (l : List (Key × Frac)), (∀ b, best = some b → b < 6) → given best = highestClaim st validator k i →
      feesLoop st validator n i best (ancestor st k i) = some l →
      l.map (fun x => (x.1, x.2.toRat)) = (List.range' i n).filterMap (payment st validator k) := by
  intro n
  induction n with
  | zero =>
    intro i best l _ _ h
    simp only [feesLoop, Option.some.injEq] at h
    subst h
    rfl
  | succ n ih =>
    intro i best l hb hg h
    cases ha : ancestor st k i with
    | none =>
      rw [ha] at h
      simp only [feesLoop, Option.some.injEq] at h
      subst h
      symm
      rw [List.map_nil, List.filterMap_eq_nil_iff]
      intro d hd
      obtain ⟨m, -, rfl⟩ := List.mem_range'.1 hd
      unfold payment
      rw [Nat.one_mul, ancestor_none ha]
    | some a =>
      rw [ha] at h
      have hnext : (infoOf st a).referrer = ancestor st k (i + 1) := by simp [ancestor, ha]
      have hp : payment st validator k i = if highestClaim st validator k i < claim st validator k i then
          some (a, ((claim st validator k i : ℚ) - highestClaim st validator k i) / 1000) else none := by
        unfold payment; rw [ha]
      have hc : claim st validator k i = if validator (addrOf a) = some true then tariff (infoOf st a).status i else 0 := by
        unfold claim; rw [ha]
      have skip : claim st validator k i ≤ highestClaim st validator k i →
          feesLoop st validator n (i + 1) best (ancestor st k (i + 1)) = some l →
          l.map (fun x => (x.1, x.2.toRat)) = (List.range' i (n + 1)).filterMap (payment st validator k) := by
        intro hle h
        rw [List.range'_succ, List.filterMap_cons, hp, if_neg (by omega)]
        refine ih (i + 1) best l hb ?_ h
        rw [hg]
        exact (max_eq_left hle).symm
      unfold feesLoop at h
      rw [hnext] at h
      split at h
      · simp at h
      · rename_i hv
        refine skip ?_ h
        rw [hc, if_neg (by rw [hv]; simp)]
        exact Nat.zero_le _
      · rename_i hv
        rw [if_pos hv, ← rowOf_tariff] at hc
        split at h
        · rename_i hj
          refine skip ?_ h
          rw [hc, hj]
          exact Nat.zero_le _
        · rename_i j hj
          have hj6 := (rowOf_lt hj).2
          rw [hj] at hc
          have hc : claim st validator k i = j + 1 := hc
          split at h
          · rename_i hlt
            have hlt := above_iff.1 hlt
            obtain ⟨r, e1, e2, e3⟩ := share?_spec hb hj6
            rw [e1] at h
            split at h
            · rename_i r' rest er hrest
              simp only [Option.some.injEq] at er h
              subst er; subst h
              rw [List.range'_succ, List.filterMap_cons, hp, if_pos (by omega)]
              rw [List.map_cons, ih (i + 1) (some j) rest (by intro b hb'; simp at hb'; omega) ?_ hrest]
              · rw [e3, hg, hc]
              · show j + 1 = max _ _
                omega
            · simp at h
          · rename_i hlt
            have : ¬ given best < j + 1 := fun hn => hlt (above_iff.2 hn)
            exact skip (by omega) h

/-! ### The property -/

/-- The commission list is exactly: for every distance below 20, the ancestor there gets what it may claim by its status and distance beyond
the highest claim of the nearer ancestors. -/
theorem C67_commission (st : KV Nat Info) (validator : Addr → Option Bool) (k : Key) (l : List (Key × Frac)) (h : validatorFees st validator k = some l) :
    l.map (fun x => (x.1, x.2.toRat)) = (List.range 20).filterMap (payment st validator k) := by
  rw [List.range_eq_range']
  exact feesLoop_exact 20 0 none l (by intro b hb; cases hb) rfl h

/-- A line of seven validators above account 2: four of status 1, then 3, 4, 9.  The one of status 3 is too far away for it, the others are not. -/
def seven : KV Nat Info :=
  KV.empty.set 2 { referrer := some 4 } |>.set 4 { status := 1, referrer := some 6 } |>.set 6 { status := 1, referrer := some 8 }
    |>.set 8 { status := 1, referrer := some 10 } |>.set 10 { status := 1, referrer := some 12 } |>.set 12 { status := 3, referrer := some 14 }
    |>.set 14 { status := 4, referrer := some 16 } |>.set 16 { status := 9 }

example : (validatorFees seven (fun _ => some true) 2).map (List.map fun x => (x.1, x.2.num, x.2.denom)) = some [(14, 2, 1000), (16, 4, 1000)] ∧
    (List.range 8).map (claim seven (fun _ => some true) 2) = [0, 0, 0, 0, 0, 2, 6, 0] := by decide +kernel

end Verif.Referral
