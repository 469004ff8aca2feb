import Verif.Referral.Model
import Mathlib.Data.List.Basic
import Mathlib.Data.List.Induction
import Mathlib.Data.List.Perm.Basic
import Mathlib.Data.List.Nodup

/-! The list helpers of /repo/util/lists.go as operations on sets. -/
namespace Verif.Referral

theorem removeFast_of_notMem {x : Key} {l : List Key} (h : x ∉ l) : removeFast l x = l := by
  simp [removeFast, h]

theorem removeFast_perm {x : Key} {l : List Key} (h : x ∈ l) : (x :: removeFast l x).Perm l := by
  have hne : l ≠ [] := List.ne_nil_of_mem h
  have hc : l.contains x = true := by simpa using h
  unfold removeFast
  rw [if_pos hc]
  clear hc
  obtain ⟨m, z, rfl⟩ : ∃ m z, l = m ++ [z] := ⟨l.dropLast, l.getLast hne, (List.dropLast_append_getLast hne).symm⟩
  simp only [List.getLastD_concat]
  by_cases hm : x ∈ m
  · have hi : (m ++ [z]).idxOf x = m.idxOf x := List.idxOf_append_of_mem hm
    have hlt : m.idxOf x < m.length := List.idxOf_lt_length_of_mem hm
    rw [hi, List.set_append_left _ _ hlt, List.dropLast_concat]
    obtain ⟨p, q, hpq, hlen⟩ : ∃ p q, m = p ++ x :: q ∧ m.idxOf x = p.length := by
      refine ⟨m.take (m.idxOf x), m.drop (m.idxOf x + 1), ?_, by simp [hlt.le]⟩
      conv_lhs => rw [← List.take_append_drop (m.idxOf x) m]
      congr 1
      rw [List.drop_eq_getElem_cons hlt, List.getElem_idxOf hlt]
    rw [hlen, hpq, List.set_append_right _ _ (le_refl _)]
    simp only [Nat.sub_self, List.set_cons_zero]
    refine (List.Perm.cons x (List.perm_middle)).trans ?_
    refine (List.Perm.swap z x _).trans ?_
    refine List.Perm.trans ?_ (List.perm_append_comm (l₁ := [z]))
    exact List.Perm.cons z (List.perm_middle.symm)
  · have hz : x = z := by simpa [hm] using h
    subst hz
    have hi : (m ++ [x]).idxOf x = m.length := by
      rw [List.idxOf_append_of_notMem hm]; simp
    rw [hi, List.set_append_right _ _ (le_refl _)]
    simp only [Nat.sub_self, List.set_cons_zero, List.dropLast_concat]
    exact (List.perm_append_comm (l₁ := [x]))

theorem removeFast_nodup {x : Key} {l : List Key} (h : l.Nodup) : (removeFast l x).Nodup := by
  by_cases hx : x ∈ l
  · have := (removeFast_perm hx).nodup_iff.2 h
    exact (List.nodup_cons.1 this).2
  · rw [removeFast_of_notMem hx]; exact h

theorem mem_removeFast {x y : Key} {l : List Key} (h : l.Nodup) : y ∈ removeFast l x ↔ y ∈ l ∧ y ≠ x := by
  by_cases hx : x ∈ l
  · have hp := removeFast_perm hx
    have hn := List.nodup_cons.1 (hp.nodup_iff.2 h)
    have hm : y ∈ x :: removeFast l x ↔ y ∈ l := hp.mem_iff
    rw [List.mem_cons] at hm
    constructor
    · intro hy
      exact ⟨hm.1 (.inr hy), fun e => hn.1 (e ▸ hy)⟩
    · rintro ⟨hy, hne⟩
      exact (hm.2 hy).resolve_left hne
  · rw [removeFast_of_notMem hx]
    exact ⟨fun hy => ⟨hy, fun e => hx (e ▸ hy)⟩, fun hy => hy.1⟩

theorem addSorted_perm {x : Key} : ∀ {l : List Key}, x ∉ l → (addSorted l x).Perm (x :: l)
  | [], _ => by simp [addSorted]
  | y :: l, h => by
    have hy : y ≠ x := fun e => h (by simp [e])
    have hl : x ∉ l := fun hm => h (by simp [hm])
    unfold addSorted
    rw [if_neg hy]
    split
    · exact List.Perm.refl _
    · exact ((addSorted_perm hl).cons y).trans (List.Perm.swap x y l)

theorem mergeLoop_perm : ∀ (n : Nat) (l1 l2 : List Key), l1.length + l2.length ≤ n → List.Disjoint l1 l2 →
    (mergeLoop n l1 l2).Perm (l1 ++ l2) := by
  intro n
  induction n with
  | zero =>
    intro l1 l2 h _
    have h1 : l1 = [] := List.length_eq_zero_iff.1 (by omega)
    have h2 : l2 = [] := List.length_eq_zero_iff.1 (by omega)
    subst h1; subst h2; simp [mergeLoop]
  | succ n ih =>
    intro l1 l2 h hd
    cases l1 with
    | nil => simp [mergeLoop]
    | cons x l1 =>
      cases l2 with
      | nil => simp [mergeLoop]
      | cons y l2 =>
        have hxy : x ≠ y := fun e => hd (List.mem_cons_self) (by rw [e]; exact List.mem_cons_self)
        unfold mergeLoop
        simp only [List.length_cons] at h
        split
        · refine (ih l1 (y :: l2) (by simp; omega) ?_).cons x
          exact fun a ha hb => hd (List.mem_cons_of_mem _ ha) hb
        · refine ((ih (x :: l1) l2 (by simp; omega) ?_).cons y).trans ?_
          · exact fun a ha hb => hd ha (List.mem_cons_of_mem _ hb)
          · exact (List.perm_middle (a := y) (l₁ := x :: l1) (l₂ := l2)).symm

theorem mergeSorted_perm {l1 l2 : List Key} (h : List.Disjoint l1 l2) : (mergeSorted l1 l2).Perm (l1 ++ l2) :=
  mergeLoop_perm _ _ _ le_rfl h

end Verif.Referral
