import Verif.Util.Model
import Mathlib.Tactic.IntervalCases

/-! Helper lemmas about the text form of fractions. -/
namespace Verif.Util

theorem digit_facts (d : Nat) (h : d < 10) :
    isDigit (digitChar d) = true ∧ digitVal (digitChar d) = d ∧ digitChar d ≠ '-' ∧
    (digitChar d = '0' ↔ d = 0) := by
  interval_cases d <;> decide

theorem natText_lt {n : Nat} (h : n < 10) : natText n = [digitChar n] := by
  rw [natText]; simp [h]

theorem natText_ge {n : Nat} (h : ¬ n < 10) : natText n = natText (n / 10) ++ [digitChar (n % 10)] := by
  rw [natText]; simp [h]

theorem natText_all (n : Nat) : ∀ c ∈ natText n, isDigit c = true := by
  induction n using Nat.strongRecOn with
  | _ n ih =>
    by_cases h : n < 10
    · rw [natText_lt h]; simp only [List.mem_singleton, forall_eq]; exact (digit_facts n h).1
    · rw [natText_ge h]
      intro c hc
      rw [List.mem_append, List.mem_singleton] at hc
      rcases hc with hc | rfl
      · exact ih (n / 10) (by omega) c hc
      · exact (digit_facts (n % 10) (by omega)).1

theorem natText_ne_nil (n : Nat) : natText n ≠ [] := by
  by_cases h : n < 10
  · rw [natText_lt h]; simp
  · rw [natText_ge h]; simp

theorem scanDigits_append (base acc : Nat) (l : List Char) (c : Char) (v : Nat)
    (h : scanDigits base acc l = some v) :
    scanDigits base acc (l ++ [c]) =
      if digitVal c < base then some (v * base + digitVal c) else none := by
  induction l generalizing acc with
  | nil => simp only [scanDigits, Option.some.injEq] at h; subst h; simp [scanDigits]
  | cons a l ih =>
    simp only [scanDigits, List.cons_append] at h ⊢
    split at h
    · rw [if_pos ‹_›]; exact ih _ h
    · simp at h

theorem scanDigits_natText (n : Nat) : scanDigits 10 0 (natText n) = some n := by
  induction n using Nat.strongRecOn with
  | _ n ih =>
    by_cases h : n < 10
    · rw [natText_lt h]; simp [scanDigits, (digit_facts n h).2.1, h]
    · rw [natText_ge h, scanDigits_append _ _ _ _ _ (ih (n / 10) (by omega)),
        (digit_facts (n % 10) (by omega)).2.1, if_pos (by omega)]
      congr 1; omega

/-- A leading zero occurs only in the text of zero. -/
theorem natText_head (n : Nat) : ∀ cs, natText n = '0' :: cs → cs = [] := by
  induction n using Nat.strongRecOn with
  | _ n ih =>
    intro cs hcs
    by_cases h : n < 10
    · rw [natText_lt h] at hcs; simp only [List.cons.injEq] at hcs; exact hcs.2.symm
    · rw [natText_ge h] at hcs
      rcases hh : natText (n / 10) with _ | ⟨c, t⟩
      · exact absurd hh (natText_ne_nil _)
      · rw [hh] at hcs
        simp only [List.cons_append, List.cons.injEq] at hcs
        obtain ⟨rfl, -⟩ := hcs
        have ht := ih (n / 10) (by omega) t hh
        subst ht
        have := scanDigits_natText (n / 10)
        rw [hh] at this
        simp [scanDigits, digitVal] at this
        omega

theorem scanNat_natText (n : Nat) : scanNat (natText n) = some n := by
  have h1 := scanDigits_natText n
  have h2 := natText_head n
  have h3 := natText_ne_nil n
  generalize natText n = l at *
  match l, h1, h2, h3 with
  | '0' :: c :: cs, _, h2, _ => exact absurd (h2 _ rfl) (by simp)
  | [], _, _, h3 => exact absurd rfl h3
  | [a], h1, _, _ =>
    unfold scanNat; split
    · simp_all
    · simp_all
    · exact h1
  | a :: b :: cs, h1, h2, _ =>
    by_cases ha : a = '0'
    · subst ha; exact absurd (h2 _ rfl) (by simp)
    · unfold scanNat; split
      · simp_all
      · simp_all
      · exact h1

theorem natText_head_minus (n : Nat) : ∀ cs, natText n ≠ '-' :: cs := by
  intro cs h
  have := natText_all n '-' (by rw [h]; simp)
  exact absurd this (by decide)

theorem scanInt_intText (n : Int) : scanInt (intText n) = some n := by
  unfold intText
  split
  · have e : -((n.natAbs : Nat) : Int) = n := by omega
    simp only [scanInt]
    rw [scanNat_natText, Option.map_some, e]
  · have hm := natText_head_minus n.natAbs
    have := scanNat_natText n.natAbs
    generalize natText n.natAbs = l at *
    unfold scanInt; split
    · exact absurd rfl (hm _)
    · rw [this]; simp; omega

theorem span_digits (l r : List Char) (hl : ∀ c ∈ l, isDigit c = true)
    (hr : ∀ c cs, r = c :: cs → isDigit c = false) :
    (l ++ r).takeWhile isDigit = l ∧ (l ++ r).dropWhile isDigit = r := by
  induction l with
  | nil =>
    cases r with
    | nil => simp
    | cons c cs => simp [hr c cs rfl]
  | cons a l ih =>
    have h1 := hl a (by simp)
    have h2 := ih (fun c hc => hl c (by simp [hc]))
    simp [h1, h2.1, h2.2]

theorem spanInt_intText (n : Int) (r : List Char) (hr : ∀ c cs, r = c :: cs → isDigit c = false) :
    spanInt (intText n ++ r) = some (intText n, r) := by
  have hs := span_digits (natText n.natAbs) r (natText_all _) hr
  have hne := natText_ne_nil n.natAbs
  have hm := natText_head_minus n.natAbs
  unfold intText
  split
  · simp only [List.cons_append, spanInt, hs.1, hs.2, List.isEmpty_eq_false_iff.2 hne]; simp
  · generalize natText n.natAbs = l at *
    match l, hne, hm, hs with
    | a :: l, _, hm, hs =>
      have : a ≠ '-' := fun h => hm l (by rw [h])
      simp only [List.cons_append] at hs ⊢
      unfold spanInt; split
      · simp_all
      · simp [hs.1, hs.2]

theorem intText_ne (n : Int) (r : List Char) : intText n ++ r ≠ [] ∧ intText n ++ r ≠ ['n', 'i', 'l'] := by
  unfold intText
  split
  · simp
  · have := natText_ne_nil n.natAbs
    have h2 := natText_all n.natAbs
    generalize natText n.natAbs = l at *
    match l, this, h2 with
    | a :: l, _, h2 =>
      refine ⟨by simp, ?_⟩
      intro h
      simp only [List.cons_append, List.cons.injEq] at h
      have := h2 a (by simp)
      rw [h.1] at this
      exact absurd this (by decide)

theorem natText_all' (n : Nat) : (natText n).all isDigit = true := by
  rw [List.all_eq_true]; exact natText_all n

end Verif.Util
