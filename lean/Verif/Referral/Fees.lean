import Verif.Referral.Model
import Verif.Util.Lemmas
import Mathlib.Tactic.IntervalCases
import Mathlib.Tactic.NormNum
import Mathlib.Tactic.Linarith

/-! C25: the fee ladder for ancestors who are validators. -/
namespace Verif.Referral
open Verif.Util

/-! ### Specification -/

/-- The ancestor of `k` at distance `n`: 0 is the referrer. -/
def ancestor (st : KV Nat Info) (k : Key) : Nat → Option Key
  | 0 => (infoOf st k).referrer
  | n + 1 => (ancestor st k n).bind fun a => (infoOf st a).referrer

/-- The list of fees from distance `i` on when `b` permille have been given away already: each beneficiary is an active validator
and the ancestor at a distance below 20, further away than the one before, whose status entitles them to `j` permille at that
distance, which is more than what has been given away, and they receive the difference. -/
inductive Paid (st : KV Nat Info) (validator : Addr → Option Bool) (k : Key) : Nat → Nat → List (Key × Frac) → Prop
  | nil (i b) : Paid st validator k i b []
  | cons (i b d j a r rest) : i ≤ d → d < 20 → ancestor st k d = some a → validator (addrOf a) = some true →
      rowOf (infoOf st a).status d 6 = some j → b < j + 1 → j < 6 → 0 < r.denom → r.toRat = ((j + 1 : Nat) - b : ℚ) / 1000 →
      Paid st validator k (d + 1) (j + 1) rest → Paid st validator k i b ((a, r) :: rest)

/-! ### Proofs -/

theorem Paid.mono {st : KV Nat Info} {validator : Addr → Option Bool} {k : Key} {i i' b : Nat} {l : List (Key × Frac)}
    (h : Paid st validator k i b l) (hi : i' ≤ i) : Paid st validator k i' b l := by
  cases h with
  | nil => exact .nil _ _
  | cons _ _ d j a r rest h1 h2 h3 h4 h5 h6 h7 h8 h9 h10 =>
    exact .cons _ _ d j a r rest (le_trans hi h1) h2 h3 h4 h5 h6 h7 h8 h9 h10

theorem rowOf_lt {status i : Nat} : ∀ {n j : Nat}, rowOf status i n = some j → j < n ∧ j < 6 := by
  intro n
  induction n with
  | zero => intro j h; simp [rowOf] at h
  | succ n ih =>
    intro j h
    unfold rowOf at h
    split at h
    · simp at h
    · rename_i e
      split at h
      · simp only [Option.some.injEq] at h
        subst h
        have := (List.getElem?_eq_some_iff.1 e).1
        simp [ladder] at this
        omega
      · have := ih h; omega

theorem rowOf_anti {status i i' : Nat} (hi : i ≤ i') : ∀ {n j j' : Nat}, rowOf status i n = some j →
    rowOf status i' n = some j' → j' ≤ j := by
  intro n
  induction n with
  | zero => intro j j' h; simp [rowOf] at h
  | succ n ih =>
    intro j j' h h'
    have hj' := (rowOf_lt h').1
    unfold rowOf at h h'
    split at h
    · simp at h
    · rename_i e
      rw [e] at h'
      dsimp only at h'
      split at h
      · simp only [Option.some.injEq] at h; omega
      · rename_i hc
        rw [if_neg (fun hh => hc ⟨hh.1, by omega⟩)] at h'
        exact ih h h'

theorem ladder_row (j : Nat) (h : j < 6) : ∃ x y, ladder[j]? = some (Frac.permille (j + 1), x, y) := by
  interval_cases j <;> exact ⟨_, _, rfl⟩

theorem share?_first {j : Nat} (h : j < 6) :
    ∃ r, share? none j = some r ∧ 0 < r.denom ∧ r.toRat = ((j + 1 : Nat) - (0 : Nat) : ℚ) / 1000 := by
  obtain ⟨x, y, hj⟩ := ladder_row j h
  obtain ⟨z, h1, h2, -, -, -, h3⟩ := Frac.sub?_spec (Frac.permille (j + 1)) (Frac.ofInt 0) (by simp [Frac.permille])
    (by simp [Frac.ofInt])
  refine ⟨z, ?_, h2, ?_⟩
  · unfold share?
    rw [hj]
    exact h1
  · rw [h3]; simp [Frac.toRat, Frac.permille, Frac.ofInt]

theorem share?_next {b j : Nat} (hb : b < 6) (h : j < 6) :
    ∃ r, share? (some b) j = some r ∧ 0 < r.denom ∧ r.toRat = ((j + 1 : Nat) - (b + 1 : Nat) : ℚ) / 1000 := by
  obtain ⟨x, y, hj⟩ := ladder_row j h
  obtain ⟨x', y', hb'⟩ := ladder_row b hb
  obtain ⟨z, h1, h2, -, -, -, h3⟩ := Frac.sub?_spec (Frac.permille (j + 1)) (Frac.permille (b + 1)) (by simp [Frac.permille])
    (by simp [Frac.permille])
  refine ⟨z, ?_, h2, ?_⟩
  · unfold share?
    rw [hj]
    dsimp only
    rw [hb']
    exact h1
  · rw [h3]; simp only [Frac.toRat, Frac.permille]; push_cast; ring

/-- What has been given away, in permille -/
def given : Option Nat → Nat
  | none => 0
  | some b => b + 1

theorem share?_spec {best : Option Nat} {j : Nat} (hb : ∀ b, best = some b → b < 6) (h : j < 6) :
    ∃ r, share? best j = some r ∧ 0 < r.denom ∧ r.toRat = ((j + 1 : Nat) - (given best : Nat) : ℚ) / 1000 := by
  cases best with
  | none => exact share?_first h
  | some b => exact share?_next (hb b rfl) h

theorem feesLoop_paid {st : KV Nat Info} {validator : Addr → Option Bool} {k : Key} :
    ∀ (n i : Nat) (best : Option Nat) (l : List (Key × Frac)), i + n = 20 → (∀ b, best = some b → b < 6) →
      feesLoop st validator n i best (ancestor st k i) = some l → Paid st validator k i (given best) l := by
  intro n
  induction n with
  | zero =>
    intro i best l _ _ h
    simp only [feesLoop, Option.some.injEq] at h
    subst h
    exact .nil _ _
  | succ n ih =>
    intro i best l hi hb h
    cases ha : ancestor st k i with
    | none =>
      rw [ha] at h
      simp only [feesLoop, Option.some.injEq] at h
      subst h
      exact .nil _ _
    | some a =>
      rw [ha] at h
      have hnext : (infoOf st a).referrer = ancestor st k (i + 1) := by simp [ancestor, ha]
      unfold feesLoop at h
      rw [hnext] at h
      split at h
      · simp at h
      · exact (ih (i + 1) best l (by omega) hb h).mono (by omega)
      · rename_i hv
        split at h
        · exact (ih (i + 1) best l (by omega) hb h).mono (by omega)
        · rename_i j hj
          have hj6 := (rowOf_lt hj).2
          split at h
          · rename_i hlt
            have hgt : given best < j + 1 := by
              cases best with
              | none => simp [given]
              | some b => simpa [given, above] using hlt
            obtain ⟨r, e1, e2, e3⟩ := share?_spec hb hj6
            rw [e1] at h
            split at h
            · rename_i r' rest er hrest
              simp only [Option.some.injEq] at er h
              subst er; subst h
              have hp := ih (i + 1) (some j) rest (by omega) (by intro b hb'; simp at hb'; omega) hrest
              exact .cons i _ i j a r rest le_rfl (by omega) ha hv hj hgt hj6 e2 e3 hp
            · simp at h
          · exact (ih (i + 1) best l (by omega) hb h).mono (by omega)

/-- The fees exist whenever it is known who is a validator. -/
theorem feesLoop_total {st : KV Nat Info} {validator : Addr → Option Bool} (hv : ∀ a, (validator a).isSome) :
    ∀ (n i : Nat) (best : Option Nat) (c : Option Key), (∀ b, best = some b → b < 6) →
      (feesLoop st validator n i best c).isSome := by
  intro n
  induction n with
  | zero => intros; simp [feesLoop]
  | succ n ih =>
    intro i best c hb
    cases c with
    | none => simp [feesLoop]
    | some a =>
      unfold feesLoop
      split
      · rename_i h
        have := hv (addrOf a)
        simp [h] at this
      · exact ih _ _ _ hb
      · split
        · exact ih _ _ _ hb
        · rename_i j hj
          have hj6 := (rowOf_lt hj).2
          split
          · obtain ⟨r, e1, -, -⟩ := share?_spec hb hj6
            obtain ⟨rest, hr⟩ := Option.isSome_iff_exists.1
              (ih (i + 1) (some j) (infoOf st a).referrer (by intro b hb'; simp at hb'; omega))
            simp [e1, hr]
          · exact ih _ _ _ hb

theorem Paid.sum {st : KV Nat Info} {validator : Addr → Option Bool} {k : Key} {i b : Nat} {l : List (Key × Frac)}
    (h : Paid st validator k i b l) (hb : b ≤ 6) : (l.map fun x => x.2.toRat).sum ≤ (6 - (b : ℚ)) / 1000 := by
  induction h with
  | nil i b =>
    have : (b : ℚ) ≤ 6 := by exact_mod_cast hb
    simp only [List.map_nil, List.sum_nil]
    linarith
  | cons i b d j a r rest h1 h2 h3 h4 h5 h6 h7 h8 h9 h10 ih =>
    have := ih (by omega)
    simp only [List.map_cons, List.sum_cons, h9]
    push_cast at this ⊢
    linarith

theorem Paid.positive {st : KV Nat Info} {validator : Addr → Option Bool} {k : Key} {i b : Nat} {l : List (Key × Frac)}
    (h : Paid st validator k i b l) : ∀ x ∈ l, 0 < x.2.denom ∧ 0 < x.2.toRat ∧ validator (addrOf x.1) = some true := by
  induction h with
  | nil i b => simp
  | cons i b d j a r rest h1 h2 h3 h4 h5 h6 h7 h8 h9 h10 ih =>
    intro x hx
    rcases List.mem_cons.1 hx with rfl | hx
    · refine ⟨h8, ?_, h4⟩
      rw [h9]
      have : (b : ℚ) < ((j + 1 : Nat) : ℚ) := by exact_mod_cast h6
      apply div_pos (by linarith) (by norm_num)
    · exact ih x hx

theorem Paid.bound {st : KV Nat Info} {validator : Addr → Option Bool} {k : Key} {i b : Nat} {l : List (Key × Frac)}
    (h : Paid st validator k i b l) :
    ∀ x ∈ l, ∃ d j, i ≤ d ∧ ancestor st k d = some x.1 ∧ rowOf (infoOf st x.1).status d 6 = some j ∧ b < j + 1 := by
  induction h with
  | nil i b => simp
  | cons i b d j a r rest h1 h2 h3 h4 h5 h6 h7 h8 h9 h10 ih =>
    intro x hx
    rcases List.mem_cons.1 hx with rfl | hx
    · exact ⟨d, j, h1, h3, h5, h6⟩
    · obtain ⟨d', j', e1, e2, e3, e4⟩ := ih x hx
      exact ⟨d', j', by omega, e2, e3, by omega⟩

theorem Paid.distinct {st : KV Nat Info} {validator : Addr → Option Bool} {k : Key} {i b : Nat} {l : List (Key × Frac)}
    (h : Paid st validator k i b l) : (l.map Prod.fst).Nodup := by
  induction h with
  | nil i b => simp
  | cons i b d j a r rest h1 h2 h3 h4 h5 h6 h7 h8 h9 h10 ih =>
    simp only [List.map_cons, List.nodup_cons]
    refine ⟨?_, ih⟩
    intro hm
    obtain ⟨x, hx, rfl⟩ := List.mem_map.1 hm
    obtain ⟨d', j', e1, -, e3, e4⟩ := h10.bound x hx
    have := rowOf_anti (by omega : d ≤ d') h5 e3
    omega

/-- The distances of the beneficiaries -/
theorem Paid.distances {st : KV Nat Info} {validator : Addr → Option Bool} {k : Key} {i b : Nat} {l : List (Key × Frac)}
    (h : Paid st validator k i b l) :
    ∃ ds : List Nat, ds.Pairwise (· < ·) ∧ (∀ d ∈ ds, i ≤ d ∧ d < 20) ∧ ds.map (ancestor st k) = l.map (fun x => some x.1) := by
  induction h with
  | nil i b => exact ⟨[], by simp, by simp, by simp⟩
  | cons i b d j a r rest h1 h2 h3 h4 h5 h6 h7 h8 h9 h10 ih =>
    obtain ⟨ds, e1, e2, e3⟩ := ih
    refine ⟨d :: ds, ?_, ?_, ?_⟩
    · simp only [List.pairwise_cons]
      exact ⟨fun x hx => by have := (e2 x hx).1; omega, e1⟩
    · intro x hx
      rcases List.mem_cons.1 hx with rfl | hx
      · exact ⟨h1, h2⟩
      · have := e2 x hx; omega
    · simp [h3, e3]

end Verif.Referral
