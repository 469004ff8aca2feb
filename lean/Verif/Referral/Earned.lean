import Verif.Referral.Status
import Verif.Referral.Actives

/-! Property C64: nobody keeps a status they did not earn, unless the day of the downgrade is set. -/
namespace Verif.Referral
open Relation

/-! ### Specification -/

/-- What the status of `v` demands, without the teams (counters of people are 64-bit numbers). -/
def Earned (st : KV Nat Info) (v : Info) : Prop := ∀ d, demand v.status = some d →
  d.coins * 1000000 ≤ ∑ l ∈ Finset.range (d.lines + 1), v.tot .delegated l ∧
  d.refs ≤ v.activeReferrals.countP fun c => decide (d.each ≤ (infoOf st c).tot .active 1 % 18446744073709551616)

/-- Except for the accounts in `E`, everybody has earned their status or is about to lose it. -/
def Fair (E : Key → Prop) (st : KV Nat Info) : Prop := ∀ k, ¬ E k → (infoOf st k).downgradeAt = none → Earned st (infoOf st k)

/-! ### What the check guarantees, without assumptions on the numbers -/

theorem enoughCoins_true {v : Info} {n : Nat} {c : Int} (h : enoughCoins v n c = some true) :
    c * 1000000 ≤ ∑ l ∈ Finset.range (n + 1), v.tot .delegated l := by
  unfold enoughCoins at h
  dsimp only at h
  rw [delegatedUpTo_sum] at h
  split at h
  · injection h with h
    rw [decide_eq_true_eq] at h
    omega
  · cases h

theorem infoOf_get {st : KV Nat Info} {c : Key} {x : Info} (h : st.get c = some x) : infoOf st c = x := by
  unfold infoOf; rw [h]; rfl

theorem xByXLoop_true {st : KV Nat Info} {count : Nat} {size : Int} : ∀ (l : List Key) (found : Nat),
    xByXLoop st count size found l = some true →
    count ≤ found + l.countP fun c => decide (size ≤ (infoOf st c).tot .active 1 % 18446744073709551616) := by
  intro l
  induction l with
  | nil => intro found h; cases h
  | cons c l ih =>
    intro found h
    unfold xByXLoop hasRefs at h
    cases hx : st.get c with
    | none => rw [hx] at h; cases h
    | some x =>
      rw [hx] at h
      simp only [Option.map_some, bind, Option.bind_some] at h
      rw [List.countP_cons, infoOf_get hx]
      have hu : u64 (x.tot .active 1) = x.tot .active 1 % 18446744073709551616 := rfl
      rw [hu] at h
      split at h
      · rename_i hs
        rw [if_pos hs]
        split at h
        · omega
        · have := ih _ h; omega
      · rename_i hs
        rw [if_neg hs]
        have := ih _ h; omega

theorem teamsLoop_true {st : KV Nat Info} {leg : Int} : ∀ (l : List Key) (a b : Nat), teamsLoop st leg a b l = some true →
    3 ≤ b + l.countP fun c => decide (3 ≤ (infoOf st c).tot .active 1 % 18446744073709551616) := by
  intro l
  induction l with
  | nil => intro a b h; unfold teamsLoop at h; simp at h; omega
  | cons c l ih =>
    intro a b h
    unfold teamsLoop at h
    cases hx : st.get c with
    | none =>
      rw [hx] at h
      dsimp only at h
      split at h
      · cases h
      · omega
    | some x =>
      rw [hx] at h
      dsimp only at h
      rw [List.countP_cons, infoOf_get hx]
      have hu : u64 (x.tot .active 1) = x.tot .active 1 % 18446744073709551616 := rfl
      rw [hu] at h
      generalize (if a < 3 ∧ bigTeam x leg 11 0 = true then a + 1 else a) = a' at h
      have hb : ∃ b', (if b < 3 ∧ 3 ≤ x.tot .active 1 % 18446744073709551616 then b + 1 else b) = b' ∧
          (b' = b ∨ (b' = b + 1 ∧ 3 ≤ x.tot .active 1 % 18446744073709551616)) := by
        split
        · rename_i h1; exact ⟨_, rfl, .inr ⟨rfl, h1.2⟩⟩
        · exact ⟨_, rfl, .inl rfl⟩
      obtain ⟨b', hb, hb'⟩ := hb
      rw [hb] at h
      have h3 : 3 ≤ b' + l.countP fun c => decide (3 ≤ (infoOf st c).tot .active 1 % 18446744073709551616) := by
        split at h
        · rename_i h3; omega
        · exact ih _ _ h
      rcases hb' with hb' | ⟨hb', hs⟩
      · rw [hb'] at h3; omega
      · rw [if_pos (by rw [decide_eq_true_eq]; exact hs)]; omega

theorem meets_true {st : KV Nat Info} {v : Info} {q : Nat} (h : meets st q v = some true) (d : Demand) (hd : demand q = some d) :
    d.coins * 1000000 ≤ ∑ l ∈ Finset.range (d.lines + 1), v.tot .delegated l ∧
    d.refs ≤ v.activeReferrals.countP fun c => decide (d.each ≤ (infoOf st c).tot .active 1 % 18446744073709551616) := by
  have X : ∀ n c k z, reqXByX st v n c k z = some true → c * 1000000 ≤ ∑ l ∈ Finset.range (n + 1), v.tot .delegated l ∧
      k ≤ v.activeReferrals.countP fun c => decide (z ≤ (infoOf st c).tot .active 1 % 18446744073709551616) := by
    intro n c k z h
    unfold reqXByX at h
    cases h1 : enoughCoins v n c with
    | none => rw [h1] at h; cases h
    | some b1 =>
      cases h2 : xByXLoop st k z 0 v.activeReferrals with
      | none => rw [h1, h2] at h; cases h
      | some b2 =>
        rw [h1, h2] at h
        simp only [bind, Option.bind_some, Option.some.injEq, Bool.and_eq_true] at h
        rw [h.1] at h1
        rw [h.2] at h2
        have := xByXLoop_true _ _ h2
        exact ⟨enoughCoins_true h1, by omega⟩
  have C : ∀ n c z, reqCore st v n c z = some true → c * 1000000 ≤ ∑ l ∈ Finset.range (n + 1), v.tot .delegated l ∧
      3 ≤ v.activeReferrals.countP fun c => decide (3 ≤ (infoOf st c).tot .active 1 % 18446744073709551616) := by
    intro n c z h
    unfold reqCore at h
    cases h1 : enoughCoins v n c with
    | none => rw [h1] at h; cases h
    | some b1 =>
      cases h2 : teamsLoop st z 0 0 v.activeReferrals with
      | none => rw [h1, h2] at h; cases h
      | some b2 =>
        rw [h1, h2] at h
        simp only [bind, Option.bind_some, Option.some.injEq, Bool.and_eq_true] at h
        rw [h.1] at h1
        rw [h.2] at h2
        have := teamsLoop_true _ _ _ h2
        exact ⟨enoughCoins_true h1, by omega⟩
  unfold meets at h
  unfold demand at hd
  split at h
  · rename_i h0; subst h0; cases hd
  · split at h
    · cases h
    · split at hd
      · injection hd with hd; subst hd; exact X _ _ _ _ h
      · injection hd with hd; subst hd; exact X _ _ _ _ h
      · injection hd with hd; subst hd; exact C _ _ _ h
      · injection hd with hd; subst hd; exact C _ _ _ h
      · injection hd with hd; subst hd; exact C _ _ _ h
      · injection hd with hd; subst hd; exact C _ _ _ h
      · injection hd with hd; subst hd; exact C _ _ _ h
      · cases hd

theorem highest_meets {st : KV Nat Info} {v : Info} : ∀ (n q r : Nat), highest st v n q = some r → r = q ∨ meets st r v = some true := by
  intro n
  induction n with
  | zero => intro q r h; injection h with h; exact .inl h.symm
  | succ n ih =>
    intro q r h
    unfold highest at h
    split at h
    · injection h with h; exact .inl h.symm
    · generalize (if q + 1 = 8 then 9 else q + 1) = nx at h
      dsimp only at h
      cases hm : meets st nx v with
      | none => rw [hm] at h; cases h
      | some b =>
        rw [hm] at h
        cases b with
        | true =>
          simp only [bind, Option.bind_some, if_true] at h
          rcases ih _ _ h with h1 | h1
          · right; rw [h1]; exact hm
          · exact .inr h1
        | false =>
          simp only [bind, Option.bind_some, Bool.false_eq_true, if_false, Option.some.injEq] at h
          exact .inl h.symm

theorem meets_same {st : KV Nat Info} {v w : Info} {q : Nat} (h1 : w.banished = v.banished) (h2 : w.activeReferrals = v.activeReferrals)
    (h3 : w.tot = v.tot) : meets st q w = meets st q v := by
  have hd : ∀ n, w.delegatedUpTo n = v.delegatedUpTo n := by intro n; rw [delegatedUpTo_sum, delegatedUpTo_sum, h3]
  have he : ∀ n c, enoughCoins w n c = enoughCoins v n c := by intro n c; unfold enoughCoins; rw [hd]
  have hx : ∀ a b c d, reqXByX st w a b c d = reqXByX st v a b c d := by intro a b c d; unfold reqXByX; rw [he, h2]
  have hc : ∀ a b c, reqCore st w a b c = reqCore st v a b c := by intro a b c; unfold reqCore; rw [he, h2]
  unfold meets
  rw [h1]
  simp only [hx, hc]

theorem highest_same {st : KV Nat Info} {v w : Info} (h1 : w.banished = v.banished) (h2 : w.activeReferrals = v.activeReferrals)
    (h3 : w.tot = v.tot) : ∀ n q, highest st w n q = highest st v n q := by
  intro n
  induction n with
  | zero => intro q; rfl
  | succ n ih => intro q; unfold highest; simp only [meets_same h1 h2 h3, ih]

theorem earned_of_meets {st : KV Nat Info} {n : Info} (h : meets st n.status n = some true) : Earned st n := fun d hd => meets_true h d hd

/-- After the check a status without a date of downgrade is earned. -/
theorem checkStatus_earned {k : Key} {v n : Info} {s t : State} (h : checkStatus k v s = (.ok n, t)) (hn : n.downgradeAt = none) :
    Earned s.work n := by
  unfold checkStatus at h
  rw [M.bind_ok_iff] at h
  obtain ⟨v1, s1, h1, h⟩ := h
  have q1 : Quiet s s1 := by
    split at h1
    · rw [M.bind_ok_iff] at h1
      obtain ⟨w, s2, h2, h1⟩ := h1
      have q2 := (Still.setStatus _ _ _).of h2
      rw [M.bind_ok_iff] at h1
      obtain ⟨_, s3, h3, h1⟩ := h1
      have q3 := (Still.addCall _ _).of h3
      simp at h1
      rw [← h1.2]
      exact q2.trans q3
    · simp at h1
      rw [← h1.2]; exact .refl _
  rw [M.get_bind_ok, M.orPanic_bind_ok] at h
  obtain ⟨b, hb, h⟩ := h
  rw [q1.work] at hb
  split at h
  · rename_i hbt
    rw [hbt] at hb
    dsimp only at h
    rw [M.orPanic_bind_ok] at h
    obtain ⟨r, hr, h⟩ := h
    rw [q1.work, highest_same (w := { v1 with downgradeAt := none }) (v := v1) rfl rfl rfl] at hr
    split at h
    · rename_i hlt
      rw [M.bind_ok_iff] at h
      obtain ⟨w, s2, h2, h⟩ := h
      have w2 := setStatus_result h2
      rw [M.bind_ok_iff] at h
      obtain ⟨_, s3, h3, h⟩ := h
      simp at h
      rw [← h.1, w2]
      refine earned_of_meets ?_
      show meets s.work r _ = some true
      rw [meets_same (w := { v1 with downgradeAt := none, status := r }) (v := v1) rfl rfl rfl]
      rcases highest_meets _ _ _ hr with h | h
      · rw [h] at hlt; omega
      · exact h
    · simp at h
      rw [← h.1]
      refine earned_of_meets ?_
      show meets s.work v1.status _ = some true
      rw [meets_same (w := { v1 with downgradeAt := none }) (v := v1) rfl rfl rfl]
      exact hb
  · split at h
    · rw [M.bind_ok_iff] at h
      obtain ⟨_, s2, h2, h⟩ := h
      simp at h
      rw [← h.1] at hn
      cases hn
    · rename_i hg
      simp at h
      rw [h.1, hn] at hg
      exact absurd rfl hg

/-! ### Updates -/

theorem update_checked {α : Type} {k : Key} {f : Info → Act (Info × α)} {s t : State} {a : α} (h : update k true f s = (.ok a, t)) :
    ∃ w s1 n, f (infoOf s.work k) s = (.ok (w, a), s1) ∧ t.work = s1.work.set k n ∧ core n = core w ∧
      (n.downgradeAt = none → Earned s1.work n) := by
  unfold update at h
  rw [recover_ok_iff, M.get_bind_ok, M.bind_ok_iff] at h
  obtain ⟨r, s1, h1, h⟩ := h
  rw [M.bind_ok_iff] at h
  obtain ⟨v, s2, h2, h⟩ := h
  rw [if_pos rfl] at h2
  rw [M.bind_ok_iff] at h
  obtain ⟨_, s3, h3, h⟩ := h
  simp at h
  obtain ⟨rfl, rfl⟩ := h
  have h4 : s3 = { s2 with work := s2.work.set k v } := by
    unfold put at h3
    simp at h3
    exact h3.symm
  have q := (Still.checkStatus _ _).of h2
  refine ⟨r.1, s1, v, h1, ?_, checkStatus_core h2, checkStatus_earned h2⟩
  rw [h4]
  show s2.work.set k v = _
  rw [q.work]

theorem update_plain {α : Type} {k : Key} {f : Info → Act (Info × α)} {s t : State} {a : α} (h : update k false f s = (.ok a, t)) :
    ∃ w s1, f (infoOf s.work k) s = (.ok (w, a), s1) ∧ t.work = s1.work.set k w := by
  unfold update at h
  rw [recover_ok_iff, M.get_bind_ok, M.bind_ok_iff] at h
  obtain ⟨r, s1, h1, h⟩ := h
  rw [M.bind_ok_iff] at h
  obtain ⟨v, s2, h2, h⟩ := h
  rw [if_neg (by simp)] at h2
  simp at h2
  obtain ⟨rfl, rfl⟩ := h2
  rw [M.bind_ok_iff] at h
  obtain ⟨_, s3, h3, h⟩ := h
  simp at h
  obtain ⟨rfl, rfl⟩ := h
  refine ⟨r.1, s1, h1, ?_⟩
  unfold put at h3
  simp at h3
  rw [← h3]

theorem Fair.mono {E E' : Key → Prop} {st : KV Nat Info} (h : Fair E st) (hE : ∀ j, E j → E' j) : Fair E' st :=
  fun k hk => h k fun hc => hk (hE k hc)

theorem earned_set {st : KV Nat Info} {k : Key} {n v : Info}
    (h : k ∉ v.activeReferrals ∨ n.tot .active 1 = (infoOf st k).tot .active 1) : Earned (st.set k n) v ↔ Earned st v := by
  have : ∀ z : Int, (v.activeReferrals.countP fun c => decide (z ≤ (infoOf (st.set k n) c).tot .active 1 % 18446744073709551616)) =
      v.activeReferrals.countP fun c => decide (z ≤ (infoOf st c).tot .active 1 % 18446744073709551616) := by
    intro z
    refine List.countP_congr fun c hc => ?_
    rw [infoOf_set]
    by_cases hck : c = k
    · rw [if_pos hck]
      rcases h with h | h
      · rw [hck] at hc; exact absurd hc h
      · rw [h, hck]
    · rw [if_neg hck]
  unfold Earned
  simp only [this]

/-- One record is replaced by an earned one. -/
theorem Fair.set {E : Key → Prop} {st : KV Nat Info} {k : Key} {n : Info} (h : Fair E st) (hn : n.downgradeAt = none → Earned st n)
    (hk : k ∉ n.activeReferrals) :
    Fair (fun j => j ≠ k ∧ (E j ∨ (k ∈ (infoOf st j).activeReferrals ∧ n.tot .active 1 ≠ (infoOf st k).tot .active 1))) (st.set k n) := by
  intro j hj hd
  rw [infoOf_set] at hd ⊢
  by_cases hjk : j = k
  · rw [if_pos hjk] at hd ⊢
    rw [earned_set (.inl hk)]
    exact hn hd
  · rw [if_neg hjk] at hd ⊢
    have hE : ¬ E j := fun hc => hj ⟨hjk, .inl hc⟩
    have h2 : k ∉ (infoOf st j).activeReferrals ∨ n.tot .active 1 = (infoOf st k).tot .active 1 := by
      by_contra hc
      rw [not_or, not_not] at hc
      exact hj ⟨hjk, .inr hc⟩
    rw [earned_set h2]
    exact h j hE hd

/-- One record is replaced by one that is as well earned. -/
theorem Fair.same {E : Key → Prop} {st : KV Nat Info} {k : Key} {n : Info} (h : Fair E st)
    (h1 : n.activeReferrals = (infoOf st k).activeReferrals) (h2 : n.tot .active 1 = (infoOf st k).tot .active 1)
    (h3 : n.status ≤ 1 ∨ (n.status = (infoOf st k).status ∧ n.downgradeAt = (infoOf st k).downgradeAt ∧ n.tot .delegated = (infoOf st k).tot .delegated)) :
    Fair E (st.set k n) := by
  intro j hj hd
  rw [infoOf_set] at hd ⊢
  by_cases hjk : j = k
  · rw [if_pos hjk] at hd ⊢
    rw [earned_set (.inr h2)]
    rcases h3 with h3 | ⟨h3, h4, h5⟩
    · intro d hdm
      have : n.status = 0 ∨ n.status = 1 := by omega
      rcases this with h | h <;> rw [h] at hdm <;> cases hdm
    · subst hjk
      have := h j hj (h4 ▸ hd)
      intro d hdm
      rw [h3] at hdm
      rw [h1, h5]
      exact this d hdm
  · rw [if_neg hjk] at hd ⊢
    rw [earned_set (.inr h2)]
    exact h j hj hd

/-! ### Computations that leave lists of active referrals and numbers of active referrals alone -/

def NoSelf (st : KV Nat Info) : Prop := ∀ k, k ∉ (infoOf st k).activeReferrals

structure Calm (s t : State) : Prop where
  lists : ∀ j, (infoOf t.work j).activeReferrals = (infoOf s.work j).activeReferrals
  ones : ∀ j, (infoOf t.work j).tot .active 1 = (infoOf s.work j).tot .active 1
  fair : ∀ E, Fair E s.work → Fair E t.work

theorem Calm.of_work {s t : State} (h : t.work = s.work) : Calm s t := ⟨fun j => by rw [h], fun j => by rw [h], fun E hE => by rw [h]; exact hE⟩

theorem Calm.trans {s t u : State} (h : Calm s t) (h' : Calm t u) : Calm s u :=
  ⟨fun j => (h'.lists j).trans (h.lists j), fun j => (h'.ones j).trans (h.ones j), fun E hE => h'.fair E (h.fair E hE)⟩

theorem Calm.noSelf {s t : State} (h : Calm s t) (hs : NoSelf s.work) : NoSelf t.work := fun k => by rw [h.lists]; exact hs k

def CalmAct {α : Type} (m : Act α) : Prop := ∀ s a t, m s = (.ok a, t) → NoSelf s.work → Calm s t

theorem Still.calm {α : Type} {m : Act α} (h : Still m) : CalmAct m := fun _ _ _ hm _ => .of_work (h.of hm).work

theorem CalmAct.bind {α β : Type} {m : Act α} {f : α → Act β} (hm : CalmAct m) (hf : ∀ a, CalmAct (f a)) : CalmAct (m >>= f) := by
  intro s b t h hs
  rw [M.bind_ok_iff] at h
  obtain ⟨a, s1, h1, h2⟩ := h
  have c1 := hm s a s1 h1 hs
  exact c1.trans (hf a s1 b t h2 (c1.noSelf hs))

theorem CalmAct.update {α : Type} {k : Key} {f : Info → Act (Info × α)} (hf : ∀ v, CalmAct (f v))
    (hw : ∀ v s w a s1, f v s = (.ok (w, a), s1) → w.activeReferrals = v.activeReferrals ∧ w.tot .active 1 = v.tot .active 1) :
    CalmAct (update k true f) := by
  intro s a t h hs
  obtain ⟨w, s1, n, h1, ht, hc, he⟩ := update_checked h
  have c1 := hf _ _ _ _ h1 hs
  obtain ⟨w1, w2⟩ := hw _ _ _ _ _ h1
  have n1 : n.activeReferrals = w.activeReferrals := (congrArg Info.activeReferrals hc : (core n).activeReferrals = (core w).activeReferrals)
  have n2 : n.tot = w.tot := (congrArg Info.tot hc : (core n).tot = (core w).tot)
  have l1 : n.activeReferrals = (infoOf s1.work k).activeReferrals := by rw [n1, w1, c1.lists]
  have l2 : n.tot .active 1 = (infoOf s1.work k).tot .active 1 := by rw [n2, w2, c1.ones]
  refine c1.trans ⟨fun j => ?_, fun j => ?_, fun E hE => ?_⟩
  · rw [ht, infoOf_set]; split
    · rename_i hj; rw [hj, l1]
    · rfl
  · rw [ht, infoOf_set]; split
    · rename_i hj; rw [hj, l2]
    · rfl
  · rw [ht]
    refine (hE.set he ?_).mono ?_
    · rw [n1, w1]; exact hs k
    · rintro j ⟨-, h | h⟩
      · exact h
      · exact absurd l2 h.2

/-- A checked update moreover justifies the account itself. -/
theorem update_clears {α : Type} {k : Key} {f : Info → Act (Info × α)} (hf : ∀ v, CalmAct (f v))
    (hw : ∀ v s w a s1, f v s = (.ok (w, a), s1) → w.activeReferrals = v.activeReferrals ∧ w.tot .active 1 = v.tot .active 1)
    {s t : State} {a : α} (h : update k true f s = (.ok a, t)) (hs : NoSelf s.work) {E : Key → Prop} (hE : Fair E s.work) :
    Fair (fun j => E j ∧ j ≠ k) t.work := by
  obtain ⟨w, s1, n, h1, ht, hc, he⟩ := update_checked h
  have c1 := hf _ _ _ _ h1 hs
  obtain ⟨w1, w2⟩ := hw _ _ _ _ _ h1
  have n1 : n.activeReferrals = w.activeReferrals := (congrArg Info.activeReferrals hc : (core n).activeReferrals = (core w).activeReferrals)
  have n2 : n.tot = w.tot := (congrArg Info.tot hc : (core n).tot = (core w).tot)
  have l2 : n.tot .active 1 = (infoOf s1.work k).tot .active 1 := by rw [n2, w2, c1.ones]
  rw [ht]
  refine ((c1.fair E hE).set he ?_).mono ?_
  · rw [n1, w1]; exact hs k
  · rintro j ⟨hj, h | h⟩
    · exact ⟨h, hj⟩
    · exact absurd l2 h.2

theorem CalmAct.plain {α : Type} {k : Key} {f : Info → Act (Info × α)} (hf : ∀ v, Still (f v))
    (hw : ∀ v s w a s1, f v s = (.ok (w, a), s1) → w.activeReferrals = v.activeReferrals ∧ w.tot .active 1 = v.tot .active 1 ∧
      (w.status ≤ 1 ∨ (w.status = v.status ∧ w.downgradeAt = v.downgradeAt ∧ w.tot .delegated = v.tot .delegated))) :
    CalmAct (Referral.update k false f) := by
  intro s a t h hs
  obtain ⟨w, s1, h1, ht⟩ := update_plain h
  have q := (hf _).of h1
  obtain ⟨w1, w2, w3⟩ := hw _ _ _ _ _ h1
  rw [q.work] at ht
  refine ⟨fun j => ?_, fun j => ?_, fun E hE => ?_⟩
  · rw [ht, infoOf_set]; split
    · rename_i hj; rw [hj, w1]
    · rfl
  · rw [ht, infoOf_set]; split
    · rename_i hj; rw [hj, w2]
    · rfl
  · rw [ht]; exact hE.same w1 w2 w3

theorem CalmAct.put {k : Key} {v : Info} {s : State} (h1 : v.activeReferrals = (infoOf s.work k).activeReferrals)
    (h2 : v.tot .active 1 = (infoOf s.work k).tot .active 1) (h3 : v.status ≤ 1) : Calm s (Referral.put k v s).2 := by
  refine ⟨fun j => ?_, fun j => ?_, fun E hE => hE.same h1 h2 (.inl h3)⟩
  · show (infoOf (s.work.set k v) j).activeReferrals = _
    rw [infoOf_set]; split
    · rename_i hj; rw [hj, h1]
    · rfl
  · show (infoOf (s.work.set k v) j).tot .active 1 = _
    rw [infoOf_set]; split
    · rename_i hj; rw [hj, h2]
    · rfl

/-- Walks that change neither lists nor numbers of active referrals -/
theorem CalmAct.climb {f : Nat → Key → Info → Act Info} {m : Nat} (hf : ∀ l k v, Still (f l k v))
    (hw : ∀ l k v s w s1, m ≤ l → f l k v s = (.ok w, s1) → w.activeReferrals = v.activeReferrals ∧ w.tot .active 1 = v.tot .active 1) :
    ∀ (n l : Nat) (k : Option Key), m ≤ l → CalmAct (Referral.climb true f n l k) := by
  intro n
  induction n with
  | zero => intro l k _; exact (Still.pure _).calm
  | succ n ih =>
    intro l k hl
    cases k with
    | none => exact (Still.pure _).calm
    | some k =>
      unfold Referral.climb
      refine .bind (.update (fun v => (Still.bind (hf l k v) fun w => Still.pure _).calm) ?_) fun next => ih _ _ (by omega)
      intro v s w a s1 h
      rw [M.bind_ok_iff] at h
      obtain ⟨w', s2, h1, h⟩ := h
      simp at h
      rw [← h.1.1]
      exact hw l k v s w' s2 hl h1

/-- They justify the first account. -/
theorem climb_clears {f : Nat → Key → Info → Act Info} {m : Nat} (hf : ∀ l k v, Still (f l k v))
    (hw : ∀ l k v s w s1, m ≤ l → f l k v s = (.ok w, s1) → w.activeReferrals = v.activeReferrals ∧ w.tot .active 1 = v.tot .active 1)
    {n l : Nat} {k : Option Key} (hl : m ≤ l) {s t : State} (h : Referral.climb true f (n + 1) l k s = (.ok (), t)) (hs : NoSelf s.work)
    {E : Key → Prop} (hE : Fair E s.work) (hk : ∀ j, E j → k = some j) : Fair (fun _ => False) t.work := by
  cases k with
  | none =>
    have : t.work = s.work := by simp [Referral.climb] at h; rw [h]
    rw [this]
    exact hE.mono fun j hj => by have := hk j hj; cases this
  | some k =>
    unfold Referral.climb at h
    rw [M.bind_ok_iff] at h
    obtain ⟨next, s1, h1, h2⟩ := h
    have hf' : ∀ v, CalmAct (do let w ← f l k v; pure (w, v.referrer)) := fun v => (Still.bind (hf l k v) fun w => Still.pure _).calm
    have hw' : ∀ v s w a s1, (do let w ← f l k v; pure (w, v.referrer) : Act (Info × Option Key)) s = (.ok (w, a), s1) →
        w.activeReferrals = v.activeReferrals ∧ w.tot .active 1 = v.tot .active 1 := by
      intro v s w a s1 h
      rw [M.bind_ok_iff] at h
      obtain ⟨w', s2, h1, h⟩ := h
      simp at h
      rw [← h.1.1]
      exact hw l k v s w' s2 hl h1
    have c := CalmAct.update (k := k) hf' hw' s next s1 h1 hs
    have f1 := update_clears hf' hw' h1 hs hE
    have c2 := CalmAct.climb hf hw n (l + 1) next (by omega) s1 () t h2 (c.noSelf hs)
    exact c2.fair _ (f1.mono fun j hj => hj.2 (by have := hk j hj.1; injection this with this; exact this.symm))

end Verif.Referral
