import Verif.Noding.Lottery

/-! Property C93: version 2.2.0 switches off the validators that do not meet the criteria. -/
namespace Verif.Noding
open Verif.Util

/-! ### Model -/

/-- One round of the loop, /repo/app/upgrade.go:281-290.  An error of `IsQualified` (the referral module does not know the account) is
logged and the validator left alone; `none` = panic (a number that does not fit in 64 bits), which ends the block.  `SwitchOff` can only
fail when there is no record; the list comes from the records. -/
def forceStep (e : Env) (s : State) (a : Addr) : Option State :=
  if (e.stake a).isNone || (e.status a).isNone then some s
  else do
    let q ← isQualified e s a
    if q.1 then some s else some ((switchOff s a).getD s)

/-- `ForceOnStatusChangedCallback`, /repo/app/upgrade.go:273-295, with the list of keeper/keeper.go:547-565 taken before the loop. -/
def forceStatuses (e : Env) (s : State) : Option State := foldOpt (forceStep e) s ((actives s).map Prod.fst)

/-! ### Specification -/

/-- The referral module knows the account, and the account does not meet the criteria. -/
def Fails (e : Env) (s : State) (a : Addr) : Prop := (∃ x, e.stake a = some x) ∧ (∃ x, e.status a = some x) ∧ ¬ Meets e s a

/-- The coins of the account fit in 64 bits. -/
def Countable (e : Env) (a : Addr) : Prop := (0 ≤ e.self a ∧ e.self a < 2 ^ 63) ∧ ∀ x, e.stake a = some x → 0 ≤ x ∧ x < 2 ^ 63

/-- The account runs a validator. -/
def Runs (s : State) (a : Addr) : Prop := ∃ i, s.records.get a = some i ∧ i.status = true ∧ i.jailed = false ∧ i.banned = false

/-! ### Proofs -/

theorem runs_iff {s : State} {a : Addr} : Runs s a ↔ ∃ i, s.records.get a = some i ∧ i.isActive = true := by
  unfold Runs Info.isActive
  simp [Bool.and_eq_true, and_assoc]

theorem mem_actives {s : State} {a : Addr} : a ∈ (actives s).map Prod.fst ↔ Runs s a := by
  rw [runs_iff]
  unfold actives
  simp only [List.mem_map, List.mem_filter]
  constructor
  · rintro ⟨⟨b, i⟩, ⟨h1, h2⟩, rfl⟩; exact ⟨i, KV.mem_entries.1 h1, h2⟩
  · rintro ⟨i, h1, h2⟩; exact ⟨(a, i), ⟨KV.mem_entries.2 h1, h2⟩, rfl⟩

theorem actives_nodup (s : State) : ((actives s).map Prod.fst).Nodup := by
  unfold actives
  have h : (s.records.entries.map Prod.fst).Pairwise (· < ·) := KV.keys_sorted _
  exact (h.sublist (List.filter_sublist.map _)).imp (fun h => ne_of_lt h)

theorem switchOff_known {s : State} {a : Addr} {i : Info} (hi : s.records.get a = some i) (ha : i.isActive = true) :
    switchOff s a = some { s with records := s.records.set a { i with status := false, lotteryNo := 0 }, queue := if i.lotteryNo = 0 then s.queue else s.queue.erase i.lotteryNo } := by
  have hst : i.status = true := by unfold Info.isActive at ha; simp only [Bool.and_eq_true] at ha; exact ha.1.1
  refine update_eq.2 ⟨i, hi, ?_⟩
  rw [hst, if_pos rfl]
  unfold leaveQueue lotteryExclude
  by_cases h : i.lotteryNo = 0
  · simp only [h, ne_eq, not_true, if_false, if_true]
  · simp only [h, ne_eq, not_false_eq_true, if_true, if_false]

theorem fails_congr {e : Env} {s t : State} {a : Addr} (hp : t.params = s.params) (hr : t.records.get a = s.records.get a) :
    Fails e t a ↔ Fails e s a := by
  unfold Fails Meets
  rw [hp, hr]

open Classical in
theorem force_loop {e : Env} : ∀ (l : List Addr) (s : State), l.Nodup → (∀ a ∈ l, Runs s a) → (∀ a ∈ l, Countable e a) →
    ∃ t, foldOpt (forceStep e) s l = some t ∧ t.params = s.params ∧ t.operators = s.operators ∧ t.proposers = s.proposers ∧
      (∀ b, t.records.get b = (s.records.get b).map fun i => if b ∈ l ∧ Fails e s b then { i with status := false, lotteryNo := 0 } else i) ∧
      ∀ n, t.queue.get n = if n ≠ 0 ∧ ∃ b ∈ l, Fails e s b ∧ no s b = n then none else s.queue.get n := by
  intro l
  induction l with
  | nil =>
    intro s _ _ _
    exact ⟨s, rfl, rfl, rfl, rfl, fun b => by simp, fun n => by simp⟩
  | cons a l ih =>
    intro s hd hv hc
    obtain ⟨hal, hd⟩ := List.nodup_cons.1 hd
    have hvl : ∀ b ∈ l, Runs s b := fun b hb => hv b (List.mem_cons_of_mem _ hb)
    have hcl : ∀ b ∈ l, Countable e b := fun b hb => hc b (List.mem_cons_of_mem _ hb)
    obtain ⟨i, hi, hact⟩ := runs_iff.1 (hv a (List.mem_cons_self ..))
    by_cases hf : Fails e s a
    · obtain ⟨⟨x, hx⟩, ⟨y, hy⟩, hm⟩ := id hf
      have hsens : Sensible e a := ⟨⟨y, hy⟩, (hc a (List.mem_cons_self ..)).1, x, hx, (hc a (List.mem_cons_self ..)).2 x hx⟩
      obtain ⟨q, stake, hq, -, -, -, hb⟩ := isQualified_iff (s := s) hsens
      have hqf : q = false := by cases q with | false => rfl | true => exact absurd (hb.1 rfl) hm
      subst hqf
      set u : State := { s with records := s.records.set a { i with status := false, lotteryNo := 0 }, queue := if i.lotteryNo = 0 then s.queue else s.queue.erase i.lotteryNo } with hu
      have hstep : forceStep e s a = some u := by
        unfold forceStep
        simp only [hx, hy, Option.isNone_some, Bool.or_self, hq, Option.bind_eq_bind, Option.bind_some, switchOff_known hi hact, Option.getD_some]
        rfl
      have hget : ∀ b, b ≠ a → u.records.get b = s.records.get b := fun b hb => by simp only [hu, KV.get_set, if_neg hb]
      have hne : ∀ b ∈ l, b ≠ a := fun b hb h => hal (h ▸ hb)
      obtain ⟨t, ht, h1, h2, h3, h4, h5⟩ := ih u hd
        (fun b hb => by unfold Runs; rw [hget b (hne b hb)]; exact hvl b hb) hcl
      refine ⟨t, foldOpt_cons.2 ⟨u, hstep, ht⟩, h1, h2, h3, ?_, ?_⟩
      · intro b
        rw [h4]
        by_cases hba : b = a
        · subst hba
          rw [hi]
          simp only [hu, KV.get_set, if_true, Option.map_some, List.mem_cons, true_or, true_and, if_pos hf, hal, false_and, if_false]
        · rw [hget b hba]
          congr 1
          funext j
          rw [fails_congr (s := s) (t := u) rfl (hget b hba)]
          simp [hba]
      · intro n
        rw [h5]
        have hiff : (n ≠ 0 ∧ ∃ b ∈ l, Fails e u b ∧ no u b = n) ↔ (n ≠ 0 ∧ ∃ b ∈ l, Fails e s b ∧ no s b = n) := by
          apply and_congr_right
          intro _
          apply exists_congr
          intro b
          apply and_congr_right
          intro hb
          have := hget b (hne b hb)
          rw [fails_congr (s := s) (t := u) rfl this]
          unfold no
          rw [this]
        by_cases hl : n ≠ 0 ∧ ∃ b ∈ l, Fails e s b ∧ no s b = n
        · rw [if_pos (hiff.2 hl), if_pos]
          obtain ⟨h0, b, hb, h⟩ := hl
          exact ⟨h0, b, List.mem_cons_of_mem _ hb, h⟩
        · rw [if_neg (fun h => hl (hiff.1 h))]
          by_cases hn : n ≠ 0 ∧ no s a = n
          · rw [if_pos ⟨hn.1, a, List.mem_cons_self .., hf, hn.2⟩]
            have : i.lotteryNo = n := by rw [← no_eq hi]; exact hn.2
            have h0 : i.lotteryNo ≠ 0 := by rw [this]; exact hn.1
            show (if i.lotteryNo = 0 then s.queue else s.queue.erase i.lotteryNo).get n = none
            rw [if_neg h0, this, KV.get_erase, if_pos rfl]
          · rw [if_neg]
            · simp only [hu]
              split
              · rfl
              · rename_i h0
                rw [KV.get_erase, if_neg]
                rintro rfl
                exact hn ⟨h0, no_eq hi⟩
            · rintro ⟨h0, b, hb, h6, h7⟩
              rcases List.mem_cons.1 hb with rfl | hb
              · exact hn ⟨h0, h7⟩
              · exact hl ⟨h0, b, hb, h6, h7⟩
    · have hstep : forceStep e s a = some s := by
        unfold forceStep
        cases hx : e.stake a with
        | none => simp
        | some x =>
          cases hy : e.status a with
          | none => simp
          | some y =>
            have hsens : Sensible e a := ⟨⟨y, hy⟩, (hc a (List.mem_cons_self ..)).1, x, hx, (hc a (List.mem_cons_self ..)).2 x hx⟩
            obtain ⟨q, stake, hq, -, -, -, hb⟩ := isQualified_iff (s := s) hsens
            have hqt : q = true := hb.2 (by by_contra hm; exact hf ⟨⟨x, hx⟩, ⟨y, hy⟩, hm⟩)
            subst hqt
            simp [hq]
      obtain ⟨t, ht, h1, h2, h3, h4, h5⟩ := ih s hd hvl hcl
      refine ⟨t, foldOpt_cons.2 ⟨s, hstep, ht⟩, h1, h2, h3, ?_, ?_⟩
      · intro b
        rw [h4]
        congr 1
        funext j
        by_cases hba : b = a
        · subst hba; simp [hf]
        · simp [hba]
      · intro n
        rw [h5]
        congr 1
        simp [hf]

open Classical in
/-- C93: if no coins exceed 64 bits, the upgrade goes through.  It switches off exactly the running validators that do not meet the criteria
and are known to the referral module; their records change in nothing but the switch and the number in the queue.  Nothing else changes, but
for the places in the queue under the numbers of those switched off. -/
theorem C93_force {e : Env} {s : State} (hc : ∀ a, Runs s a → Countable e a) :
    ∃ t, forceStatuses e s = some t ∧ t.params = s.params ∧ t.operators = s.operators ∧ t.proposers = s.proposers ∧
      (∀ a, t.records.get a = (s.records.get a).map fun i =>
        if Runs s a ∧ Fails e s a then { i with status := false, lotteryNo := 0 } else i) ∧
      ∀ n, t.queue.get n = if n ≠ 0 ∧ ∃ a i, Runs s a ∧ Fails e s a ∧ s.records.get a = some i ∧ i.lotteryNo = n then none else s.queue.get n := by
  obtain ⟨t, ht, h1, h2, h3, h4, h5⟩ := force_loop (e := e) _ s (actives_nodup s) (fun a ha => mem_actives.1 ha)
    (fun a ha => hc a (mem_actives.1 ha))
  refine ⟨t, ht, h1, h2, h3, fun a => ?_, fun n => ?_⟩
  · rw [h4]; simp only [mem_actives]
  · rw [h5]
    have : (n ≠ 0 ∧ ∃ b ∈ (actives s).map Prod.fst, Fails e s b ∧ no s b = n) ↔
        (n ≠ 0 ∧ ∃ a i, Runs s a ∧ Fails e s a ∧ s.records.get a = some i ∧ i.lotteryNo = n) := by
      apply and_congr_right
      intro _
      apply exists_congr
      intro b
      rw [mem_actives]
      constructor
      · rintro ⟨hr, hf, hn⟩
        obtain ⟨i, hi, -⟩ := id hr
        exact ⟨i, hr, hf, hi, by rw [← no_eq hi]; exact hn⟩
      · rintro ⟨i, hr, hf, hi, hn⟩
        exact ⟨hr, hf, by rw [no_eq hi]; exact hn⟩
    simp only [this]

/-- C93, the aim: afterwards every running validator known to the referral module meets the criteria; who met them before still runs; and
nobody was switched on. -/
theorem C93_qualified {e : Env} {s t : State} (hc : ∀ a, Runs s a → Countable e a) (ht : forceStatuses e s = some t) (a : Addr) :
    Runs t a ↔ Runs s a ∧ ((∃ x, e.stake a = some x) → (∃ x, e.status a = some x) → Meets e t a) := by
  classical
  obtain ⟨t', ht', hp, -, -, hr, -⟩ := C93_force hc
  rw [ht] at ht'; cases ht'
  have hmeets : Meets e t a ↔ Meets e s a := by
    unfold Meets
    rw [hp, hr]
    apply or_congr_left
    constructor
    · rintro ⟨i, hi, h⟩
      obtain ⟨j, hj, rfl⟩ := Option.map_eq_some_iff.1 hi
      exact ⟨j, hj, by split at h <;> exact h⟩
    · rintro ⟨i, hi, h⟩
      exact ⟨_, by rw [hi]; rfl, by dsimp only; split <;> exact h⟩
  rw [hmeets]
  have hfails : (¬ ((∃ x, e.stake a = some x) → (∃ x, e.status a = some x) → Meets e s a)) ↔ Fails e s a := by
    unfold Fails; push Not; rfl
  constructor
  · rintro ⟨i, hi, h⟩
    rw [hr] at hi
    obtain ⟨j, hj, rfl⟩ := Option.map_eq_some_iff.1 hi
    by_cases hf : Runs s a ∧ Fails e s a
    · simp [hf] at h
    · rw [if_neg hf] at h
      have hrun : Runs s a := ⟨j, hj, h⟩
      exact ⟨hrun, by by_contra hx; exact hf ⟨hrun, hfails.1 hx⟩⟩
  · rintro ⟨⟨i, hi, h⟩, hm⟩
    refine ⟨i, ?_, h⟩
    rw [hr, hi, Option.map_some, if_neg]
    rintro ⟨-, hf⟩
    exact hfails.2 hf hm

/-- C93, the queue: where numbers and places agree, they still do, and those that stay keep their places. -/
theorem C93_queue_partial {e : Env} {s t : State} (hl : Linked s) (hc : ∀ a, Runs s a → Countable e a) (ht : forceStatuses e s = some t) :
    Linked t ∧ ∀ n a, t.queue.get n = some a ↔ s.queue.get n = some a ∧ Runs t a := by
  classical
  obtain ⟨t', ht', hp, -, -, hr, hq⟩ := C93_force hc
  rw [ht] at ht'; cases ht'
  have hiff : ∀ n a, t.queue.get n = some a ↔ s.queue.get n = some a ∧ ¬ (Runs s a ∧ Fails e s a) := by
    intro n a
    rw [hq]
    constructor
    · intro h
      split at h
      · cases h
      · rename_i hn
        refine ⟨h, fun hx => hn ?_⟩
        obtain ⟨h0, h1⟩ := hl.fwd n a h
        obtain ⟨i, hi, -⟩ := id hx.1
        exact ⟨h0, a, i, hx.1, hx.2, hi, by rw [← no_eq hi]; exact h1⟩
    · rintro ⟨h, hx⟩
      rw [if_neg, h]
      rintro ⟨h0, b, i, hb, hf, hi, hn⟩
      have hb' := hl.bwd b (by rw [no_eq hi, hn]; exact h0)
      rw [no_eq hi, hn, h] at hb'
      cases hb'
      exact hx ⟨hb, hf⟩
  have hno : ∀ a, no t a = if Runs s a ∧ Fails e s a then 0 else no s a := by
    intro a
    unfold no
    rw [hr]
    cases s.records.get a with
    | none => simp
    | some i => simp only [Option.map_some, Option.getD_some]; split <;> rfl
  have hrun : ∀ n a, s.queue.get n = some a → Runs s a := by
    intro n a h
    obtain ⟨h0, h1⟩ := hl.fwd n a h
    cases hg : s.records.get a with
    | none => unfold no at h1; rw [hg] at h1; exact absurd h1.symm h0
    | some i =>
      rw [no_eq hg] at h1
      exact runs_iff.2 ⟨i, hg, hl.active a i hg (by omega)⟩
  refine ⟨⟨?_, ?_, ?_⟩, ?_⟩
  · intro n a h
    obtain ⟨h1, h2⟩ := (hiff n a).1 h
    obtain ⟨h3, h4⟩ := hl.fwd n a h1
    exact ⟨h3, by rw [hno, if_neg h2]; exact h4⟩
  · intro a h
    have hx : ¬ (Runs s a ∧ Fails e s a) := fun hx => h (by rw [hno, if_pos hx])
    rw [hno, if_neg hx] at h ⊢
    exact (hiff _ a).2 ⟨hl.bwd a h, hx⟩
  · intro a i hi h0
    rw [hr] at hi
    obtain ⟨j, hj, rfl⟩ := Option.map_eq_some_iff.1 hi
    split at h0
    · simp at h0
    · rename_i hx
      rw [if_neg hx]
      exact hl.active a j hj h0
  · intro n a
    rw [hiff, and_congr_right_iff]
    intro h
    rw [C93_qualified hc ht a]
    have hra := hrun n a h
    have hmeets : Meets e t a ↔ Meets e s a := by
      unfold Meets
      rw [hp, hr]
      apply or_congr_left
      constructor
      · rintro ⟨i, hi, h⟩
        obtain ⟨j, hj, rfl⟩ := Option.map_eq_some_iff.1 hi
        exact ⟨j, hj, by split at h <;> exact h⟩
      · rintro ⟨i, hi, h⟩
        exact ⟨_, by rw [hi]; rfl, by dsimp only; split <;> exact h⟩
    rw [hmeets]
    unfold Fails
    constructor
    · intro hx
      refine ⟨hra, fun h1 h2 => ?_⟩
      by_contra hm
      exact hx ⟨hra, h1, h2, hm⟩
    · rintro ⟨-, hx⟩ ⟨-, h1, h2, hm⟩
      exact hm (hx h1 h2)

/-- Three run; the stake of two of them has fallen below the criteria without anybody noticing (C33).  The first, who is on the staff, and
the last stay. -/
def Ex.fallen : State :=
  runs [(Ex.env 1, .switchOn 1 71), (Ex.env 1, .switchOn 2 72), (Ex.env 1, .switchOn 3 73), (Ex.env 1, .addStaff 1), (Ex.env 1, .gather)]
    (Ex.start 1 1)

example : no Ex.fallen 2 = 1 ∧ no Ex.fallen 3 = 2 ∧
    (forceStatuses { Ex.env 2 with stake := fun a => if a = 3 then some 5000 else some 10 } Ex.fallen).any (fun t =>
      isValidator t 1 && !isValidator t 2 && isValidator t 3 && decide (no t 2 = 0) && decide (t.queue.get 2 = some 3) &&
      decide (t.queue.get 1 = none)) = true := by decide +kernel

/-- The full claim fails for the queue: after the defect of C34 the number of a validator to be switched off may have been given to
somebody else, who then loses the place: validator 3 meets the criteria, runs on and has a number, but is not in the queue any more. -/
theorem C93_place_lost_violation : ∃ (s : State) (l : List (Env × Op)) (e : Env), Start s ∧ (∀ x ∈ l, SortOk x.1.sort) ∧
    (∀ a, Countable e a) ∧ ¬ Fails e (runs l s) 3 ∧ (runs l s).queue.get 1 = some 3 ∧
    (forceStatuses e (runs l s)).any (fun t => isValidator t 3 && decide (no t 3 = 1) && decide (t.queue.get 1 = none)) = true := by
  refine ⟨Ex.start 1 1, [(Ex.env 1, .switchOn 1 71), (Ex.env 1, .switchOn 2 72), (Ex.env 1, .gather), (Ex.env 2 (stake := 10), .stakeChanged 2),
    (Ex.env 3, .switchOn 3 73), (Ex.env 3, .gather)], { Ex.env 4 with stake := fun a => if a = 2 then some 10 else some 5000 },
    Ex.start_ok 1 1 (by omega), ?_, ?_, ?_, by decide +kernel, by decide +kernel⟩
  · intro x hx
    simp only [List.mem_cons, List.not_mem_nil, or_false] at hx
    rcases hx with rfl | rfl | rfl | rfl | rfl | rfl <;> exact sortBefore_ok
  · intro a
    refine ⟨⟨by simp only [Ex.env]; decide, by simp only [Ex.env]; decide⟩, fun x hx => ?_⟩
    dsimp only at hx
    split at hx <;> cases hx <;> constructor <;> norm_num
  · rintro ⟨-, -, h⟩
    apply h
    right
    refine ⟨⟨5, by decide, by decide +kernel⟩, by decide +kernel, 5000, by decide, by decide +kernel⟩

end Verif.Noding
