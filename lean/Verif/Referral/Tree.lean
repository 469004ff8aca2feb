import Verif.Referral.Lists
import Mathlib.Logic.Relation

/-! Referral trees and how they can be changed. -/
namespace Verif.Referral
open Relation

/-- `up`: the referrer; `kids`: the referrals; `out`: banished. -/
structure Tree where
  up : Key → Option Key
  kids : Key → List Key
  out : Key → Bool

/-- `p` is the referrer of `c`. -/
def Tree.over (T : Tree) (p c : Key) : Prop := T.up c = some p

/-- A consistent forest over the accounts in `P`. -/
structure Forest (T : Tree) (P : Key → Prop) : Prop where
  nodup : ∀ p, (T.kids p).Nodup
  mem : ∀ p c, c ∈ T.kids p ↔ T.up c = some p ∧ T.out c = false
  acc : ∀ c, Acc T.over c
  here : ∀ c p, T.up c = some p → P p

variable {T T' : Tree} {P P' : Key → Prop}

theorem Forest.irrefl (h : Forest T P) {c : Key} : T.up c ≠ some c := by
  intro e
  have : ∀ x, Acc T.over x → x = c → False := by
    intro x hx
    induction hx with
    | intro x _ ih => intro hxc; subst hxc; exact ih x e rfl
  exact this c (h.acc c) rfl

/-- Referrers replaced by ancestors -/
theorem acc_of_trans (h : ∀ c, Acc T.over c) (hs : ∀ c p, T'.up c = some p → TransGen T.over p c) (c : Key) : Acc T'.over c := by
  have h1 : Acc (TransGen T.over) c := (h c).transGen
  exact Subrelation.accessible (fun {p c} hp => hs c p hp) h1

/-- One referrer replaced by an account that is not below -/
theorem acc_of_move (h : ∀ c, Acc T.over c) {s p : Key} (hs : ¬ ReflTransGen T.over s p) (h1 : ∀ q, T'.up s = some q → q = p)
    (h2 : ∀ c, c ≠ s → T'.up c = T.up c) (c : Key) : Acc T'.over c := by
  have a1 : ∀ x, Acc T.over x → ¬ ReflTransGen T.over s x → Acc T'.over x := by
    intro x hx
    induction hx with
    | intro x _ ih =>
      intro hn
      have hxs : x ≠ s := fun e => hn (e ▸ .refl)
      refine ⟨x, fun y hy => ?_⟩
      have hy' : T.over y x := by
        unfold Tree.over at hy ⊢
        rw [← h2 x hxs]; exact hy
      exact ih y hy' (fun hr => hn (hr.tail hy'))
  have a2 : Acc T'.over s := ⟨s, fun y hy => by rw [h1 y hy]; exact a1 p (h p) hs⟩
  have a3 : ∀ x, Acc T.over x → Acc T'.over x := by
    intro x hx
    induction hx with
    | intro x _ ih =>
      by_cases hxs : x = s
      · rw [hxs]; exact a2
      · refine ⟨x, fun y hy => ih y ?_⟩
        unfold Tree.over at hy ⊢
        rw [← h2 x hxs]; exact hy
  exact a3 c (h c)

/-- Nothing but the presence of accounts changes. -/
theorem Forest.grow (h : Forest T P) (hp : ∀ k, P k → P' k) : Forest T P' :=
  ⟨h.nodup, h.mem, h.acc, fun c p hc => hp p (h.here c p hc)⟩

theorem Forest.congr (h : Forest T P) (h1 : ∀ k, T'.up k = T.up k) (h2 : ∀ k, T'.kids k = T.kids k)
    (h3 : ∀ k, T'.out k = T.out k) (hp : ∀ k, P k → P' k) : Forest T' P' := by
  have : T' = T := by
    cases T; cases T'
    simp only [Tree.mk.injEq]
    exact ⟨funext h1, funext h2, funext h3⟩
  rw [this]
  exact h.grow hp

/-- A new account -/
theorem Forest.insert (h : Forest T P) {p c : Key} (hc : ¬ P c) (hne : c ≠ p)
    (hu : ∀ k, T'.up k = if k = c then some p else T.up k)
    (hk : ∀ k, T'.kids k = if k = p then T.kids p ++ [c] else T.kids k)
    (ho : ∀ k, T'.out k = T.out k) (hoc : T.out c = false) (huc : T.up c = none) (hp : ∀ k, P k → P' k) (hpp : P' p) :
    Forest T' P' := by
  have hnk : ∀ q, c ∉ T.kids q := by
    intro q hq
    have := ((h.mem q c).1 hq).1
    rw [huc] at this; cases this
  have hup : ∀ x, T.up x ≠ some c := fun x hx => hc (h.here x c hx)
  refine ⟨?_, ?_, ?_, ?_⟩
  · intro q
    rw [hk]
    split
    · have := h.nodup p
      rw [List.nodup_append]
      refine ⟨this, by simp, ?_⟩
      intro a ha b hb
      simp at hb
      subst hb
      exact fun e => hnk p (e ▸ ha)
    · exact h.nodup q
  · intro q x
    rw [hk, hu, ho]
    by_cases hx : x = c
    · subst hx
      rw [if_pos rfl, hoc]
      by_cases hq : q = p
      · subst hq; simp
      · rw [if_neg hq]
        have : (some p = some q) = False := by simp [Ne.symm hq]
        simp [this, hnk q]
    · rw [if_neg hx, ← h.mem]
      split
      · rename_i e; subst e; simp [hx]
      · exact Iff.rfl
  · refine acc_of_move (s := c) (p := p) h.acc ?_ ?_ ?_
    · intro hr
      rcases ReflTransGen.cases_head hr with e | ⟨y, hy, -⟩
      · exact hne e
      · exact hup y hy
    · intro q hq
      rw [hu, if_pos rfl] at hq
      injection hq with hq; exact hq.symm
    · intro x hx
      rw [hu, if_neg hx]
  · intro x q hx
    rw [hu] at hx
    split at hx
    · injection hx with hx; subst hx; exact hpp
    · exact hp _ (h.here x q hx)

/-- An account changes its referrer. -/
theorem Forest.move (h : Forest T P) {s a b : Key} (hb : ¬ ReflTransGen T.over s b) (hab : a ≠ b) (hs : s ∈ T.kids a)
    (hu : ∀ k, T'.up k = if k = s then some b else T.up k)
    (hka : (T'.kids a).Nodup ∧ ∀ x, x ∈ T'.kids a ↔ x ∈ T.kids a ∧ x ≠ s)
    (hkb : T'.kids b = T.kids b ++ [s])
    (hk : ∀ k, k ≠ a → k ≠ b → T'.kids k = T.kids k)
    (ho : ∀ k, T'.out k = T.out k) (hp : ∀ k, P k → P' k) (hpp : P' b) :
    Forest T' P' := by
  obtain ⟨hsa, hso⟩ := (h.mem a s).1 hs
  have hsk : ∀ q, s ∈ T.kids q → q = a := by
    intro q hq
    have := ((h.mem q s).1 hq).1
    rw [hsa] at this
    injection this with this; exact this.symm
  refine ⟨?_, ?_, ?_, ?_⟩
  · intro q
    by_cases hqa : q = a
    · subst hqa; exact hka.1
    · by_cases hqb : q = b
      · subst hqb
        rw [hkb, List.nodup_append]
        refine ⟨h.nodup q, by simp, ?_⟩
        intro x hx y hy
        simp at hy
        subst hy
        exact fun e => hqa (hsk q (e ▸ hx))
      · rw [hk q hqa hqb]; exact h.nodup q
  · intro q x
    rw [hu, ho]
    by_cases hx : x = s
    · subst hx
      rw [if_pos rfl]
      simp only [Option.some.injEq, hso, and_true]
      by_cases hqa : q = a
      · subst hqa
        rw [hka.2]
        simp [Ne.symm hab]
      · by_cases hqb : q = b
        · subst hqb; rw [hkb]; simp
        · rw [hk q hqa hqb]
          exact ⟨fun e => absurd (hsk q e) hqa, fun e => absurd e.symm hqb⟩
    · rw [if_neg hx, ← h.mem]
      by_cases hqa : q = a
      · subst hqa
        rw [hka.2]
        simp [hx]
      · by_cases hqb : q = b
        · subst hqb; rw [hkb]; simp [hx]
        · rw [hk q hqa hqb]
  · refine acc_of_move (s := s) (p := b) h.acc hb ?_ ?_
    · intro q hq
      rw [hu, if_pos rfl] at hq
      injection hq with hq; exact hq.symm
    · intro x hx
      rw [hu, if_neg hx]
  · intro x q hx
    rw [hu] at hx
    split at hx
    · injection hx with hx; subst hx; exact hpp
    · exact hp _ (h.here x q hx)

/-- All referrals of an account go to its referrer. -/
theorem Forest.compress (h : Forest T P) {k p : Key} (hkp : T.up k = some p)
    (hu : ∀ x, T'.up x = if x ∈ T.kids k then some p else T.up x)
    (hk : ∀ x, T'.kids x = if x = p then T.kids p ++ T.kids k else if x = k then [] else T.kids x)
    (ho : ∀ x, T'.out x = T.out x) (hp : ∀ x, P x → P' x) : Forest T' P' := by
  have hne : k ≠ p := fun e => h.irrefl (c := k) (by rw [hkp, e])
  have hdis : ∀ x, x ∈ T.kids p → x ∈ T.kids k → False := by
    intro x h1 h2
    have e1 := ((h.mem p x).1 h1).1
    have e2 := ((h.mem k x).1 h2).1
    rw [e1] at e2
    injection e2 with e2
    exact hne e2.symm
  refine ⟨?_, ?_, ?_, ?_⟩
  · intro q
    rw [hk]
    split
    · rw [List.nodup_append]
      exact ⟨h.nodup p, h.nodup k, fun a ha b hb e => hdis a ha (e ▸ hb)⟩
    · split
      · simp
      · exact h.nodup q
  · intro q x
    rw [hk, hu, ho]
    by_cases hx : x ∈ T.kids k
    · obtain ⟨e1, e2⟩ := (h.mem k x).1 hx
      rw [if_pos hx]
      simp only [e2, and_true, Option.some.injEq]
      by_cases hq : q = p
      · subst hq; simp [hx]
      · rw [if_neg hq]
        have hqp : ¬ p = q := fun e => hq e.symm
        by_cases hqk : q = k
        · rw [if_pos hqk]; simp [hqp]
        · rw [if_neg hqk, h.mem]
          rw [e1]
          simp only [Option.some.injEq]
          exact ⟨fun e => absurd e.1.symm hqk, fun e => absurd e hqp⟩
    · rw [if_neg hx, ← h.mem]
      by_cases hq : q = p
      · subst hq; simp [hx]
      · rw [if_neg hq]
        by_cases hqk : q = k
        · subst hqk; simp [hx]
        · rw [if_neg hqk]
  · refine acc_of_trans h.acc ?_
    intro x q hx
    rw [hu] at hx
    split at hx
    · rename_i hm
      injection hx with hx; subst hx
      exact TransGen.head (b := k) hkp (TransGen.single ((h.mem k x).1 hm).1)
    · exact TransGen.single hx
  · intro x q hx
    rw [hu] at hx
    split at hx
    · injection hx with hx; subst hx; exact hp _ (h.here k p hkp)
    · exact hp _ (h.here x q hx)

/-- An account leaves. -/
theorem Forest.banish (h : Forest T P) {k p : Key} (hkp : T.up k = some p)
    (hu : ∀ x, T'.up x = T.up x)
    (hkp' : (T'.kids p).Nodup ∧ ∀ x, x ∈ T'.kids p ↔ x ∈ T.kids p ∧ x ≠ k)
    (hk : ∀ x, x ≠ p → T'.kids x = T.kids x)
    (ho : ∀ x, T'.out x = if x = k then true else T.out x) (hp : ∀ x, P x → P' x) : Forest T' P' := by
  refine ⟨?_, ?_, ?_, ?_⟩
  · intro q
    by_cases hq : q = p
    · subst hq; exact hkp'.1
    · rw [hk q hq]; exact h.nodup q
  · intro q x
    rw [hu, ho]
    by_cases hx : x = k
    · subst hx
      simp only [if_true, Bool.true_eq_false, and_false, iff_false]
      by_cases hq : q = p
      · subst hq; rw [hkp'.2]; simp
      · rw [hk q hq, h.mem, hkp]
        simp only [Option.some.injEq]
        exact fun e => hq e.1.symm
    · rw [if_neg hx, ← h.mem]
      by_cases hq : q = p
      · subst hq; rw [hkp'.2]; simp [hx]
      · rw [hk q hq]
  · exact acc_of_trans h.acc fun x q hx => TransGen.single (by rw [hu] at hx; exact hx)
  · intro x q hx
    rw [hu] at hx
    exact hp _ (h.here x q hx)

/-- A banished account comes back, below an ancestor or at the top. -/
theorem Forest.comeBack (h : Forest T P) {k : Key} {b : Option Key} (hout : T.out k = true)
    (hb : ∀ p, b = some p → TransGen T.over p k)
    (hu : ∀ x, T'.up x = if x = k then b else T.up x)
    (hk : ∀ x, T'.kids x = if some x = b then T.kids x ++ [k] else T.kids x)
    (ho : ∀ x, T'.out x = if x = k then false else T.out x) (hp : ∀ x, P x → P' x) : Forest T' P' := by
  have hnk : ∀ q, k ∉ T.kids q := by
    intro q hq
    have := ((h.mem q k).1 hq).2
    rw [hout] at this; cases this
  refine ⟨?_, ?_, ?_, ?_⟩
  · intro q
    rw [hk]
    split
    · rw [List.nodup_append]
      refine ⟨h.nodup q, by simp, ?_⟩
      intro x hx y hy
      simp at hy; subst hy
      exact fun e => hnk q (e ▸ hx)
    · exact h.nodup q
  · intro q x
    rw [hk, hu, ho]
    by_cases hx : x = k
    · subst hx
      simp only [if_true, and_true]
      by_cases hq : some q = b
      · rw [if_pos hq]; simp [hq]
      · rw [if_neg hq]
        exact ⟨fun e => absurd e (hnk q), fun e => absurd e.symm hq⟩
    · rw [if_neg hx, if_neg hx, ← h.mem]
      split
      · simp [hx]
      · exact Iff.rfl
  · refine acc_of_trans h.acc ?_
    intro x q hx
    rw [hu] at hx
    split at hx
    · rename_i e; subst e; exact hb q hx
    · exact TransGen.single hx
  · intro x q hx
    rw [hu] at hx
    split at hx
    · have := hb q hx
      rcases TransGen.head'_iff.1 this with ⟨y, hy, -⟩
      exact hp _ (h.here y q hy)
    · exact hp _ (h.here x q hx)

end Verif.Referral
