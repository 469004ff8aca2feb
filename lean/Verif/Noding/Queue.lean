import Verif.Noding.Change

/-! The lottery queue and the numbers in the records: the invariant and the operations that keep it. -/
namespace Verif.Noding
open Verif.Util

/-- The lottery number of an account, 0 if it has none. -/
def no (s : State) (a : Addr) : Nat := ((s.records.get a).map Info.lotteryNo).getD 0

/-- Queue positions and records correspond one to one, and only active validators are queued. -/
structure Linked (s : State) : Prop where
  fwd : ∀ n a, s.queue.get n = some a → n ≠ 0 ∧ no s a = n
  bwd : ∀ a, no s a ≠ 0 → s.queue.get (no s a) = some a
  active : ∀ a i, s.records.get a = some i → i.lotteryNo ≠ 0 → i.isActive = true

theorem no_eq {s : State} {a : Addr} {i : Info} (h : s.records.get a = some i) : no s a = i.lotteryNo := by simp [no, h]

theorem nextNo_pos (q : KV Nat Addr) : nextNo q ≠ 0 := by
  unfold nextNo; split <;> simp

theorem lt_nextNo {q : KV Nat Addr} {n : Nat} (h : n ∈ q.keys) : n < nextNo q := by
  unfold nextNo
  have hs := q.keys_sorted
  cases hl : q.keys.getLast? with
  | none => rw [List.getLast?_eq_none_iff] at hl; rw [hl] at h; simp at h
  | some m =>
    obtain ⟨l, hl'⟩ := List.getLast?_eq_some_iff.1 hl
    rw [hl'] at h hs
    rw [List.pairwise_append] at hs
    rcases List.mem_append.1 h with h | h
    · have := hs.2.2 n h m (by simp); simp only; omega
    · simp only [List.mem_singleton] at h; simp only; omega

theorem nextNo_fresh (q : KV Nat Addr) : q.get (nextNo q) = none := by
  cases h : q.get (nextNo q) with
  | none => rfl
  | some a => exact absurd (lt_nextNo (KV.mem_keys.2 ⟨a, h⟩)) (lt_irrefl _)

/-- One record changes, the queue follows: the invariant stays. -/
theorem Linked.change {s t : State} {a : Addr} {j : Info} (h : Linked s) (hr : t.records = s.records.set a j)
    (hj : j.lotteryNo ≠ 0 → j.isActive = true) (hfree : j.lotteryNo ≠ 0 → s.queue.get j.lotteryNo = none ∨ j.lotteryNo = no s a)
    (hq : ∀ n, t.queue.get n = if n = j.lotteryNo ∧ n ≠ 0 then some a else if n = no s a then none else s.queue.get n) : Linked t := by
  have ha : no t a = j.lotteryNo := by simp [no, hr]
  have hb : ∀ b, b ≠ a → no t b = no s b := by intro b hb; simp [no, hr, KV.get_set_ne _ _ hb]
  refine ⟨?_, ?_, ?_⟩
  · intro n b hn
    rw [hq n] at hn
    split at hn
    · rename_i hc
      cases hn
      exact ⟨hc.2, by rw [ha, hc.1]⟩
    · rename_i hc
      split at hn
      · simp at hn
      · rename_i hne
        obtain ⟨h1, h2⟩ := h.fwd n b hn
        refine ⟨h1, ?_⟩
        by_cases hba : b = a
        · subst hba; exact absurd h2.symm hne
        · rw [hb b hba, h2]
  · intro b hn
    by_cases hba : b = a
    · subst hba
      rw [ha] at hn ⊢
      rw [hq, if_pos ⟨rfl, hn⟩]
    · rw [hb b hba] at hn ⊢
      rw [hq]
      have hsb := h.bwd b hn
      have h1 : no s b ≠ no s a := by
        intro he
        have := h.bwd a (he ▸ hn)
        rw [← he, hsb] at this
        cases this; exact hba rfl
      rw [if_neg ?_, if_neg h1, hsb]
      rintro ⟨hc, -⟩
      rcases hfree (hc ▸ hn) with hf | hf
      · rw [← hc, hsb] at hf; cases hf
      · exact h1 (hc.trans hf)
  · intro b i hi hn
    rw [hr, KV.get_set] at hi
    split at hi
    · cases hi; exact hj hn
    · exact h.active b i hi hn

theorem Linked.none_zero {s : State} (h : Linked s) : s.queue.get 0 = none := by
  cases hg : s.queue.get 0 with
  | none => rfl
  | some a => exact absurd rfl (h.fwd 0 a hg).1

/-- A record changes without touching the number. -/
theorem Linked.keep {s t : State} {a : Addr} {j : Info} (h : Linked s) (hr : t.records = s.records.set a j) (hq : t.queue = s.queue)
    (hn : j.lotteryNo = no s a) (hj : j.lotteryNo ≠ 0 → j.isActive = true) : Linked t := by
  refine h.change hr hj (fun _ => Or.inr hn) ?_
  intro n
  rw [hq]
  split
  · rename_i hc; rw [hc.1, hn]; exact h.bwd a (by rw [← hn, ← hc.1]; exact hc.2)
  · rename_i hc
    split
    · rename_i hc2
      have : n = 0 := by
        by_contra h0; exact hc ⟨by rw [hn, hc2], h0⟩
      rw [this]; exact h.none_zero
    · rfl

theorem Linked.leave {s t : State} {a : Addr} {j : Info} (h : Linked s) (hn : j.lotteryNo = no s a)
    (hr : t.records = s.records.set a (leaveQueue s.queue j).2) (hq : t.queue = (leaveQueue s.queue j).1) : Linked t := by
  unfold leaveQueue lotteryExclude at hr hq
  split at hr
  · rename_i h0
    rw [if_pos h0] at hq
    refine h.change hr (by simp) (by simp) ?_
    intro n
    rw [hq, ← hn]
    simp only [KV.get_erase]
    have hno : ¬ (n = 0 ∧ n ≠ 0) := fun h => h.2 h.1
    rw [if_neg hno]
  · rename_i h0
    rw [if_neg h0] at hq
    exact h.keep hr hq hn (fun h1 => absurd h1 h0)

theorem Linked.move {s t : State} {a : Addr} {j : Info} (h : Linked s) (hn : j.lotteryNo = no s a) (hj : j.lotteryNo ≠ 0 → j.isActive = true)
    (hr : t.records = s.records.set a (moveBack s.queue a j).2) (hq : t.queue = (moveBack s.queue a j).1) : Linked t := by
  unfold moveBack lotteryDownshift lotteryAddNew lotteryExclude at hr hq
  split at hr
  · rename_i h0
    rw [if_pos h0] at hq
    have hf := nextNo_fresh (s.queue.erase j.lotteryNo)
    refine h.change hr (fun _ => ?_) (fun _ => ?_) ?_
    · exact hj h0
    · rw [KV.get_erase] at hf
      split at hf
      · rename_i he; right; rw [← hn]; exact he
      · left; exact hf
    · intro n
      rw [hq, ← hn]
      simp only [KV.get_set, KV.get_erase]
      by_cases hc : n = nextNo (s.queue.erase j.lotteryNo)
      · rw [if_pos hc, if_pos ⟨hc, by rw [hc]; exact nextNo_pos _⟩]
      · have hno : ¬ (n = nextNo (s.queue.erase j.lotteryNo) ∧ n ≠ 0) := fun h => hc h.1
        rw [if_neg hc, if_neg hno]
  · rename_i h0
    rw [if_neg h0] at hq
    exact h.keep hr hq hn (fun h1 => absurd h1 h0)

theorem Linked.join {s t : State} {a : Addr} {j : Info} (h : Linked s) (h0 : no s a = 0) (ha : j.isActive = true)
    (hn : j.lotteryNo = nextNo s.queue) (hr : t.records = s.records.set a j) (hq : t.queue = s.queue.set (nextNo s.queue) a) : Linked t := by
  refine h.change hr (fun _ => ha) (fun _ => Or.inl (hn ▸ nextNo_fresh _)) ?_
  intro n
  rw [hq, KV.get_set, hn, h0]
  by_cases hc : n = nextNo s.queue
  · rw [if_pos hc, if_pos ⟨hc, by rw [hc]; exact nextNo_pos _⟩]
  · rw [if_neg hc, if_neg (fun h => hc h.1)]
    split
    · rename_i h1; rw [h1]; exact h.none_zero
    · rfl

/-- A change that leaves records and queue alone. -/
theorem Linked.of_eq {s t : State} (h : Linked s) (hr : t.records = s.records) (hq : t.queue = s.queue) : Linked t := by
  have hn : ∀ a, no t a = no s a := by intro a; simp [no, hr]
  exact ⟨fun n a hg => by rw [hn]; exact h.fwd n a (hq ▸ hg), fun a h0 => by rw [hn] at h0 ⊢; rw [hq]; exact h.bwd a h0,
    fun a i hi => h.active a i (hr ▸ hi)⟩

theorem Linked.update {s t : State} {a : Addr} {f : KV Nat Addr → Info → KV Nat Addr × Info} (h : Linked s) (hu : update s a f = some t)
    (hf : ∀ i, s.records.get a = some i → (∃ j, f s.queue i = leaveQueue s.queue j ∧ j.lotteryNo = i.lotteryNo) ∨
      (∃ j, f s.queue i = moveBack s.queue a j ∧ j.lotteryNo = i.lotteryNo ∧ j.isActive = i.isActive) ∨
      (∃ j, f s.queue i = (s.queue, j) ∧ j.lotteryNo = i.lotteryNo ∧ j.isActive = i.isActive)) : Linked t := by
  obtain ⟨i, hi, rfl⟩ := update_eq.1 hu
  have hn := no_eq hi
  rcases hf i hi with ⟨j, h1, h2⟩ | ⟨j, h1, h2, h3⟩ | ⟨j, h1, h2, h3⟩
  · exact h.leave (j := j) (h2.trans hn.symm) (by rw [h1]) (by rw [h1])
  · refine h.move (j := j) (h2.trans hn.symm) ?_ (by rw [h1]) (by rw [h1])
    rw [h2, h3]; exact h.active a i hi
  · refine h.keep (a := a) (j := j) (by rw [h1]) (by rw [h1]) (h2.trans hn.symm) ?_
    rw [h2, h3]; exact h.active a i hi

theorem Linked.switchOff {s t : State} {a : Addr} (h : Linked s) (hs : switchOff s a = some t) : Linked t := by
  refine h.update hs fun i hi => ?_
  split
  · exact Or.inl ⟨_, rfl, rfl⟩
  · exact Or.inr (Or.inr ⟨i, rfl, rfl, rfl⟩)

theorem Linked.statusUpdate {e : Env} {s t : State} {a : Addr} (h : Linked s) (hs : onStatusUpdate e s a = some t) : Linked t := by
  rcases onStatusUpdate_some hs with rfl | ⟨-, -, hs⟩
  · exact h
  · exact h.switchOff hs

/-- The stake callback is harmless unless it finds a queued validator that no longer qualifies. -/
def Harmless (e : Env) (s : State) (a : Addr) : Prop :=
  ∀ i q, s.records.get a = some i → i.lotteryNo ≠ 0 → isQualified e s a = some q → q.1 = true

theorem Linked.stakeChanged {e : Env} {s t : State} {a : Addr} (h : Linked s) (hh : Harmless e s a)
    (hs : onStakeChanged e s a = some t) : Linked t := by
  rcases onStakeChanged_some hs with rfl | ⟨i, q, st, hi, hq, -, ⟨ha, hq1, rfl⟩ | ⟨-, rfl⟩⟩
  · exact h
  · refine h.of_eq rfl ?_
    unfold leaveQueue
    split
    · rename_i h0
      have := hh i q hi h0 hq
      rw [hq1] at this; cases this
    · rfl
  · exact h.keep (j := i.updateScore e.log st) (t := { s with records := s.records.set a (i.updateScore e.log st) }) rfl rfl (no_eq hi).symm (h.active a i hi)

theorem updateScore_isActive (i : Info) (log : Int → Int) (st : Int) : (i.updateScore log st).isActive = i.isActive := rfl

theorem Linked.switchOn {e : Env} {s t : State} {a : Addr} {k : PubKey} (h : Linked s) (hs : switchOn e s a k = some t) : Linked t := by
  obtain ⟨-, h2, -, q, st, -, -, -, rfl⟩ := switchOn_some hs
  have h0 : no s a = 0 := by
    cases hg : s.records.get a with
    | none => simp [no, hg]
    | some i =>
      rw [no_eq hg]
      by_contra hne
      have := h.active a i hg hne
      simp [Info.isActive, (h2 i hg).2] at this
  have : (registered e (s.records.get a) k st).lotteryNo = 0 := by
    cases hg : s.records.get a with
    | none => rfl
    | some i =>
      rw [no_eq hg] at h0
      exact h0
  exact h.keep (a := a) (j := registered e (s.records.get a) k st) (t := register e s a k st) rfl rfl (by rw [this, h0]) (fun hne => absurd this hne)

theorem Linked.unjail {e : Env} {s t : State} {a : Addr} (h : Linked s) (hs : unjail e s a = some t) : Linked t := by
  obtain ⟨i, q, hi, hj, -, -, hs⟩ := unjail_some hs
  have h0 : i.lotteryNo = 0 := by
    by_contra hne
    have := h.active a i hi hne
    simp [Info.isActive, hj] at this
  rcases hs with ⟨-, st, -, rfl⟩ | ⟨-, rfl⟩
  · exact h.keep (a := a) (j := { i with jailed := false }.updateScore e.log st) rfl rfl (no_eq hi).symm (fun hne => absurd h0 hne)
  · exact h.keep (a := a) (j := { i with jailed := false, status := false }) rfl rfl (no_eq hi).symm (fun hne => absurd h0 hne)

theorem Linked.proposed {e : Env} {s t : State} {a : Addr} (h : Linked s) (hs : markProposed e s a = some t) : Linked t := by
  have h' : Linked { s with proposers := s.proposers.set (e.height - 1) a } := h.of_eq rfl rfl
  exact h'.update hs fun i _ => Or.inr (Or.inl ⟨_, rfl, rfl, rfl⟩)

theorem Linked.tick {s t : State} {a : Addr} (h : Linked s) (hs : markTick s a = some t) : Linked t := by
  refine h.update hs fun i _ => Or.inr (Or.inr ⟨_, rfl, ?_, ?_⟩) <;> (split <;> rfl)

theorem Linked.stroke {e : Env} {s t : State} {a : Addr} (h : Linked s) (hs : markStroke e s a = some t) : Linked t := by
  refine h.update hs fun i _ => ?_
  split
  · exact Or.inr (Or.inr ⟨i, rfl, rfl, rfl⟩)
  · dsimp only
    split
    · exact Or.inl ⟨_, rfl, rfl⟩
    · exact Or.inr (Or.inl ⟨_, rfl, rfl, rfl⟩)

theorem Linked.byzantine {s t : State} {a : Addr} (h : Linked s) (hs : markByzantine s a = some t) : Linked t := by
  refine h.update hs fun i _ => ?_
  dsimp only
  split
  · exact Or.inl ⟨_, rfl, rfl⟩
  · exact Or.inr (Or.inl ⟨_, rfl, rfl, rfl⟩)

theorem Linked.addStaff {s : State} (h : Linked s) (a : Addr) : Linked (addToStaff s a) := by
  unfold addToStaff
  cases hg : s.records.get a with
  | some i => exact h.keep (a := a) (j := { i with staff := true }) rfl rfl (no_eq hg).symm (h.active a i hg)
  | none =>
    have h0 : no s a = 0 := by simp [no, hg]
    exact h.keep (a := a) (j := { staff := true }) rfl rfl h0.symm (fun hne => absurd rfl hne)

theorem Linked.amnesty {s : State} (h : Linked s) : Linked (generalAmnesty s) := by
  have hn : ∀ a, no (generalAmnesty s) a = no s a := by
    intro a
    simp only [no, amnesty_get, Option.map_map]
    congr 2
    funext i
    simp only [Function.comp, Info.amnesty]
    split <;> rfl
  refine ⟨fun n a hg => by rw [hn]; exact h.fwd n a hg, fun a h0 => by rw [hn] at h0 ⊢; exact h.bwd a h0, ?_⟩
  intro a i hi hne
  rw [amnesty_get] at hi
  cases hg : s.records.get a with
  | none => simp [hg] at hi
  | some j =>
    simp only [hg, Option.map_some, Option.some.injEq] at hi
    subst hi
    have e1 : j.amnesty.lotteryNo = j.lotteryNo := by unfold Info.amnesty; split <;> rfl
    have e2 : j.amnesty.isActive = j.isActive := by unfold Info.amnesty; split <;> rfl
    rw [e2]; exact h.active a j hg (e1 ▸ hne)

/-- Leaving staff: the status callback runs first and takes an unqualified validator out of the queue properly. -/
theorem Linked.removeStaff {e : Env} {s : State} (h : Linked s) (a : Addr) : Linked (removeFromStaff e s a) := by
  rcases removeFromStaff_cases e s a with h1 | ⟨i, hi, -, s1, h1, h2⟩
  · rw [h1]; exact h
  · have l1 : Linked s1 := by
      rw [h1]; exact h.keep (a := a) (j := { i with staff := false }) rfl rfl (no_eq hi).symm (h.active a i hi)
    rcases h2 with h2 | ⟨-, s2, h3, h4⟩
    · rw [h2]; exact l1
    · have l2 := l1.statusUpdate h3
      rcases h4 with h4 | h4
      · rw [h4]; exact l2
      · refine l2.stakeChanged ?_ h4
        intro j q hj h0 hq
        have hact := l2.active a j hj h0
        rcases onStatusUpdate_some h3 with h5 | ⟨-, -, h5⟩
        · subst h5
          unfold onStatusUpdate at h3
          rw [show isValidator s2 a = true by simp [isValidator, hj, hact], if_pos rfl] at h3
          simp only [hq, Option.bind_eq_bind, Option.bind_some] at h3
          by_contra hq1
          rw [if_neg hq1] at h3
          have hr := update_records h3 a
          rw [if_pos rfl, hj] at hr
          simp only [Option.map_some, Option.some.injEq] at hr
          have hst : j.status = true := by simp only [Info.isActive, Bool.and_eq_true] at hact; exact hact.1.1
          rw [if_pos hst] at hr
          have hc := congrArg Info.core hr
          rw [core_leaveQueue] at hc
          have := core_status hc
          rw [hst] at this
          cases this
        · have hr := update_records h5 a
          rw [if_pos rfl, h1] at hr
          simp only [KV.get_set_self, Option.map_some, hj, Option.some.injEq] at hr
          split at hr
          · have hc := congrArg Info.core hr
            rw [core_leaveQueue] at hc
            have := core_status hc
            simp only [Info.isActive, Bool.and_eq_true] at hact
            rw [hact.1.1] at this
            cases this
          · rename_i hst
            have := congrArg Info.status hr
            simp only [Info.isActive, Bool.and_eq_true] at hact
            dsimp only at this hst
            rw [hact.1.1] at this
            exact absurd this.symm hst

end Verif.Noding
