import Verif.Noding.Rules

/-! Properties C33 and C34: the criteria for validators and the lottery queue. -/
namespace Verif.Noding
open Verif.Util

/-! ### C33 -/

/-- The criteria: staff, or high enough status, own delegation and network stake. -/
def Meets (e : Env) (s : State) (a : Addr) : Prop :=
  (∃ i, s.records.get a = some i ∧ i.staff = true) ∨
    ((∃ st, e.status a = some st ∧ s.params.minStatus ≤ st) ∧ (s.params.minSelf : Int) ≤ e.self a ∧
      ∃ stake, e.stake a = some stake ∧ (s.params.minTotal : Int) ≤ stake)

/-- The other modules answer with sensible numbers. -/
def Sensible (e : Env) (a : Addr) : Prop :=
  (∃ st, e.status a = some st) ∧ (0 ≤ e.self a ∧ e.self a < 2 ^ 63) ∧ ∃ stake, e.stake a = some stake ∧ 0 ≤ stake ∧ stake < 2 ^ 63

theorem isQualified_iff {e : Env} {s : State} {a : Addr} (h : Sensible e a) : ∃ b stake, isQualified e s a = some (b, stake) ∧
    e.stake a = some stake ∧ 0 ≤ stake ∧ stake < 2 ^ 63 ∧ (b = true ↔ Meets e s a) := by
  obtain ⟨⟨st, hst⟩, ⟨h1, h2⟩, stake, hsk, h3, h4⟩ := h
  have hs63 : (2 : Int) ^ 63 < 2 ^ 64 := by norm_num
  have u1 : uint64? (e.self a) = some (e.self a).toNat := by unfold uint64?; rw [if_pos ⟨h1, by omega⟩]
  have u2 : uint64? stake = some stake.toNat := by unfold uint64?; rw [if_pos ⟨h3, by omega⟩]
  unfold isQualified
  simp only [hst, hsk, u1, u2, Option.bind_eq_bind, Option.bind_some]
  by_cases hstaff : ((s.records.get a).map Info.staff).getD false = true
  · rw [if_pos hstaff]
    refine ⟨true, stake, rfl, rfl, h3, h4, iff_of_true rfl (Or.inl ?_)⟩
    cases hg : s.records.get a with
    | none => rw [hg] at hstaff; cases hstaff
    | some i => rw [hg] at hstaff; exact ⟨i, rfl, hstaff⟩
  · rw [if_neg hstaff]
    have hns : ¬ ∃ i, s.records.get a = some i ∧ i.staff = true := by
      rintro ⟨i, hi, hs⟩; apply hstaff; rw [hi]; exact hs
    split
    · rename_i hc
      refine ⟨false, stake, rfl, rfl, h3, h4, iff_of_false (by simp) ?_⟩
      rintro (h | ⟨⟨st', h5, h6⟩, -⟩)
      · exact hns h
      · rw [hst] at h5; cases h5; omega
    · rename_i hc
      split
      · rename_i hc2
        refine ⟨false, stake, rfl, rfl, h3, h4, iff_of_false (by simp) ?_⟩
        rintro (h | ⟨-, h5, -⟩)
        · exact hns h
        · omega
      · rename_i hc2
        split
        · rename_i hc3
          refine ⟨false, stake, rfl, rfl, h3, h4, iff_of_false (by simp) ?_⟩
          rintro (h | ⟨-, -, sk, h5, h6⟩)
          · exact hns h
          · rw [hsk] at h5; cases h5; omega
        · rename_i hc3
          exact ⟨true, stake, rfl, rfl, h3, h4, iff_of_true rfl (Or.inr ⟨⟨st, hst, by omega⟩, by omega, stake, hsk, by omega⟩)⟩

theorem sdkInt64?_ok {x : Int} (h0 : 0 ≤ x) (h : x < 2 ^ 63) : sdkInt64? x = some x := by
  unfold sdkInt64?
  rw [if_pos]
  unfold isInt64
  simp only [Bool.and_eq_true, decide_eq_true_eq]
  omega

/-- C33 for status changes: after the callback `OnStatusUpdate` an account that does not meet the criteria is not an active
validator; one that meets them is left alone. -/
theorem C33_status {e : Env} {s : State} {a : Addr} (h : Sensible e a) :
    ∃ t, onStatusUpdate e s a = some t ∧ (¬ Meets e s a → isValidator t a = false) ∧ (Meets e s a → t = s) := by
  obtain ⟨b, stake, hq, -, -, -, hb⟩ := isQualified_iff (s := s) h
  unfold onStatusUpdate
  by_cases hv : isValidator s a = true
  · rw [if_pos hv]
    simp only [hq, Option.bind_eq_bind, Option.bind_some]
    by_cases hm : Meets e s a
    · rw [if_pos (hb.2 hm)]
      exact ⟨s, rfl, fun h => absurd hm h, fun _ => rfl⟩
    · rw [if_neg (fun hbt => hm (hb.1 hbt))]
      cases hg : s.records.get a with
      | none => simp [isValidator, hg] at hv
      | some i =>
        have hu : switchOff s a = some _ := update_eq.2 ⟨i, hg, rfl⟩
        refine ⟨_, hu, fun _ => ?_, fun h => absurd h hm⟩
        have hst : i.status = true := by
          simp only [isValidator, hg, Option.map_some, Option.getD_some, Info.isActive, Bool.and_eq_true] at hv; exact hv.1.1
        unfold isValidator
        simp only [KV.get_set_self, Option.map_some, Option.getD_some, hst, if_true]
        have := (core_fields (core_leaveQueue s.queue { i with status := false })).1
        simp [Info.isActive, this]
  · rw [if_neg hv]
    exact ⟨s, rfl, fun _ => by simpa using hv, fun _ => rfl⟩

theorem meets_congr {e : Env} {s t : State} {a : Addr} (hp : t.params = s.params)
    (h : ((t.records.get a).map Info.staff).getD false = ((s.records.get a).map Info.staff).getD false) : Meets e t a → Meets e s a := by
  rintro (⟨i, hi, hs⟩ | h1)
  · left
    rw [hi] at h
    cases hg : s.records.get a with
    | none => rw [hg] at h; simp [hs] at h
    | some j => rw [hg] at h; simp only [Option.map_some, Option.getD_some, hs] at h; exact ⟨j, rfl, h.symm⟩
  · right; rw [hp] at h1; exact h1

/-- C33 when somebody leaves the staff: whoever does not meet the criteria then is not an active validator afterwards. -/
theorem C33_staff {e : Env} {s : State} {a : Addr} (h : Sensible e a) {i : Info} (hi : s.records.get a = some i) (hs : i.staff = true)
    (hm : ¬ Meets e { s with records := s.records.set a { i with staff := false } } a) : isValidator (removeFromStaff e s a) a = false := by
  unfold removeFromStaff
  simp only [hi, hs, if_true]
  split
  · obtain ⟨t, ht, h1, -⟩ := C33_status (s := { s with records := s.records.set a { i with staff := false } }) h
    rw [ht]
    have hoff := h1 hm
    dsimp only
    cases hk : onStakeChanged e t a with
    | none => exact hoff
    | some t2 =>
      rw [Option.getD_some]
      rcases onStakeChanged_some hk with rfl | ⟨j, q, st, hj, -, -, ⟨-, -, rfl⟩ | ⟨-, rfl⟩⟩
      · exact hoff
      · exact hoff
      · unfold isValidator at hoff ⊢
        rw [hj] at hoff
        simp only [KV.get_set_self]
        exact hoff
  · rename_i ha
    simp only [isValidator, KV.get_set_self, Option.map_some, Option.getD_some]
    simpa [Info.isActive] using ha

/-- C33 when somebody is released from jail: whoever does not meet the criteria is not active. -/
theorem C33_release {e : Env} {s t : State} {a : Addr} (h : Sensible e a) (ht : unjail e s a = some t) (hm : ¬ Meets e s a) :
    isValidator t a = false := by
  obtain ⟨b, stake, hq, -, -, -, hb⟩ := isQualified_iff (s := s) h
  obtain ⟨i, q, hi, -, -, hq', ⟨h1, -⟩ | ⟨-, rfl⟩⟩ := unjail_some ht
  · rw [hq] at hq'; cases hq'
    exact absurd (hb.1 h1) hm
  · simp [isValidator, KV.get_set_self, Info.isActive]

/-- C33 for stake changes, as far as it holds: a stake change never turns anybody on, and an account that meets the criteria only
has its score recalculated.  What is missing: an active validator that no longer meets them stays active, see `C33_stake_ignored`. -/
theorem C33_stake_partial {e : Env} {s : State} {a : Addr} (h : Sensible e a) :
    ∃ t, onStakeChanged e s a = some t ∧ (isValidator s a = false → isValidator t a = false) ∧
      (Meets e s a → t.queue = s.queue ∧ ∀ i, s.records.get a = some i → ∃ stake, e.stake a = some stake ∧
        t.records = s.records.set a { i with score := e.log (max 1 stake) - i.strokes + i.okBlocks.tdiv 100 }) := by
  obtain ⟨b, stake, hq, hsk, h0, h63, hb⟩ := isQualified_iff (s := s) h
  have h64 := sdkInt64?_ok h0 h63
  unfold onStakeChanged
  cases hg : s.records.get a with
  | none => exact ⟨s, rfl, fun h => h, fun _ => ⟨rfl, fun i hi => by cases hi⟩⟩
  | some i =>
    dsimp only
    simp only [hq, h64, Option.bind_eq_bind, Option.bind_some]
    split
    · rename_i hc
      simp only [Bool.and_eq_true, Bool.not_eq_true'] at hc
      refine ⟨_, rfl, fun h => by simpa [isValidator, hg] using h, fun hm => ?_⟩
      rw [hb.2 hm] at hc; cases hc.2
    · refine ⟨_, rfl, ?_, fun hm => ⟨rfl, ?_⟩⟩
      · intro hv
        simp only [isValidator, hg, Option.map_some, Option.getD_some] at hv
        simp only [isValidator, KV.get_set_self, Option.map_some, Option.getD_some]
        exact hv
      · intro i' hi'; cases hi'
        refine ⟨stake, hsk, ?_⟩
        unfold Info.updateScore
        dsimp only
        have : (if stake < 1 then 1 else stake) = max 1 stake := by
          by_cases h1 : stake < 1
          · rw [if_pos h1]; omega
          · rw [if_neg h1]; omega
        rw [this]

/-- The full claim fails: `OnStakeChanged` returns before it saves the record, so a validator whose stake has dropped below the
criteria stays switched on and is chosen again in the following block. -/
theorem C33_stake_ignored : ∃ (e : Env) (s : State) (a : Addr), Sensible e a ∧ ¬ Meets e s a ∧ isValidator s a = true ∧
    ∃ t, onStakeChanged e s a = some t ∧ isValidator t a = true ∧ validatorState ((Op.gather).run e t) a = .top := by
  let s := runs [(Ex.env 1, .switchOn 1 71), (Ex.env 1, .gather)] (Ex.start 3 0)
  refine ⟨Ex.env 2 (stake := 10), s, 1, ⟨⟨5, rfl⟩, ⟨by decide, by decide⟩, 10, rfl, by decide, by decide⟩, ?_, by decide +kernel, ?_⟩
  · have hs : ((s.records.get 1).map Info.staff).getD false = false := by decide +kernel
    have hp : s.params.minTotal = 1000 := by decide +kernel
    rintro (⟨i, hi, h⟩ | ⟨-, -, sk, h1, h2⟩)
    · rw [hi] at hs; simp only [Option.map_some, Option.getD_some] at hs; rw [hs] at h; cases h
    · rw [hp] at h2
      have : sk = 10 := (Option.some.inj h1).symm
      subst this
      norm_num at h2
  · have h : (onStakeChanged (Ex.env 2 (stake := 10)) s 1).map (fun t => (isValidator t 1, validatorState ((Op.gather).run (Ex.env 2 (stake := 10)) t) 1))
        = some (true, .top) := by decide +kernel
    cases hx : onStakeChanged (Ex.env 2 (stake := 10)) s 1 with
    | none => rw [hx] at h; cases h
    | some t =>
      rw [hx] at h
      simp only [Option.map_some, Option.some.injEq, Prod.mk.injEq] at h
      exact ⟨t, rfl, h.1, h.2⟩

/-- A demotion switches off, a demoted staff member stays on until leaving the staff. -/
example : isValidator (runs [(Ex.env 1, .switchOn 1 71), (Ex.env 2 (status := 2), .statusUpdate 1)] (Ex.start 3 0)) 1 = false ∧
    isValidator (runs [(Ex.env 1, .switchOn 1 71), (Ex.env 2, .addStaff 1), (Ex.env 2 (status := 2), .statusUpdate 1)] (Ex.start 3 0)) 1 = true ∧
    isValidator (runs [(Ex.env 1, .switchOn 1 71), (Ex.env 2, .addStaff 1), (Ex.env 2 (status := 2), .statusUpdate 1),
      (Ex.env 3 (status := 2), .removeStaff 1)] (Ex.start 3 0)) 1 = false := by decide +kernel

/-! ### C34 -/

/-- The account an operation is about. -/
def Op.subject : Op → Option Addr
  | .switchOn a _ | .switchOff a | .unjail a | .statusUpdate a | .stakeChanged a | .proposed a | .tick a | .stroke a | .byzantine a
  | .addStaff a | .removeStaff a => some a
  | .amnesty | .setParams _ | .gather => none

theorem no_other_update {s t : State} {a : Addr} {f : KV Nat Addr → Info → KV Nat Addr × Info} (h : update s a f = some t) {y : Addr}
    (hy : y ≠ a) : no t y = no s y := by
  unfold no; rw [update_records h, if_neg hy]

theorem no_other_set {s t : State} {a : Addr} {j : Info} (h : t.records = s.records.set a j) {y : Addr} (hy : y ≠ a) : no t y = no s y := by
  unfold no; rw [h, KV.get_set_ne _ _ hy]

theorem no_other_statusUpdate {e : Env} {s t : State} {a : Addr} (h : onStatusUpdate e s a = some t) {y : Addr} (hy : y ≠ a) : no t y = no s y := by
  rcases onStatusUpdate_some h with rfl | ⟨-, -, h⟩
  · rfl
  · exact no_other_update h hy

theorem no_stakeChanged {e : Env} {s t : State} {a : Addr} (h : onStakeChanged e s a = some t) (y : Addr) : no t y = no s y := by
  rcases onStakeChanged_some h with rfl | ⟨i, q, st, hi, -, -, ⟨-, -, rfl⟩ | ⟨-, rfl⟩⟩
  · rfl
  · rfl
  · by_cases hy : y = a
    · subst hy; unfold no; simp only [KV.get_set_self, hi]; rfl
    · exact no_other_set rfl hy

theorem getD_rec {s : State} {o : Option State} {Q : State → Prop} (h0 : Q s) (h : ∀ t, o = some t → Q t) : Q (o.getD s) := by
  cases o with
  | none => exact h0
  | some t => exact h t rfl

/-- Operations other than the block end change the number of their subject only. -/
theorem no_other (e : Env) (s : State) {op : Op} (hop : op ≠ .gather) {y : Addr} (hy : op.subject ≠ some y) : no (op.run e s) y = no s y := by
  cases op with
  | switchOn a k =>
    refine getD_rec (Q := fun t => no t y = no s y) rfl fun t h => ?_
    obtain ⟨-, -, -, q, st, -, -, -, rfl⟩ := switchOn_some h
    exact no_other_set rfl (fun h => hy (by rw [h]; rfl))
  | switchOff a => exact getD_rec (Q := fun t => no t y = no s y) rfl fun t h => no_other_update h (fun h => hy (by rw [h]; rfl))
  | unjail a =>
    refine getD_rec (Q := fun t => no t y = no s y) rfl fun t h => ?_
    obtain ⟨i, q, hi, -, -, -, ⟨-, st, -, rfl⟩ | ⟨-, rfl⟩⟩ := unjail_some h
    · exact no_other_set rfl (fun h => hy (by rw [h]; rfl))
    · exact no_other_set rfl (fun h => hy (by rw [h]; rfl))
  | statusUpdate a => exact getD_rec (Q := fun t => no t y = no s y) rfl fun t h => no_other_statusUpdate h (fun h => hy (by rw [h]; rfl))
  | stakeChanged a => exact getD_rec (Q := fun t => no t y = no s y) rfl fun t h => no_stakeChanged h y
  | proposed a =>
    exact getD_rec (Q := fun t => no t y = no s y) rfl fun t h =>
      no_other_update (s := { s with proposers := s.proposers.set (e.height - 1) a }) h (fun h => hy (by rw [h]; rfl))
  | tick a => exact getD_rec (Q := fun t => no t y = no s y) rfl fun t h => no_other_update h (fun h => hy (by rw [h]; rfl))
  | stroke a => exact getD_rec (Q := fun t => no t y = no s y) rfl fun t h => no_other_update h (fun h => hy (by rw [h]; rfl))
  | byzantine a => exact getD_rec (Q := fun t => no t y = no s y) rfl fun t h => no_other_update h (fun h => hy (by rw [h]; rfl))
  | addStaff a =>
    have hya : y ≠ a := fun h => hy (by rw [h]; rfl)
    show no (addToStaff s a) y = _
    unfold addToStaff
    split <;> exact no_other_set rfl hya
  | removeStaff a =>
    have hya : y ≠ a := fun h => hy (by rw [h]; rfl)
    show no (removeFromStaff e s a) y = _
    rcases removeFromStaff_cases e s a with h | ⟨i, hi, -, s1, h1, h⟩
    · rw [h]
    · have g1 : no s1 y = no s y := no_other_set (by rw [h1]) hya
      rcases h with h | ⟨-, s2, h2, h⟩
      · rw [h]; exact g1
      · have g2 := (no_other_statusUpdate h2 hya).trans g1
        rcases h with h | h
        · rw [h]; exact g2
        · exact (no_stakeChanged h y).trans g2
  | amnesty =>
    show no (generalAmnesty s) y = _
    unfold no
    rw [amnesty_get]
    cases s.records.get y with
    | none => rfl
    | some i => simp only [Option.map_some, Option.getD_some]; unfold Info.amnesty; split <;> rfl
  | setParams p =>
    refine getD_rec (Q := fun t => no t y = no s y) rfl fun t h => ?_
    unfold setParams at h
    split at h
    · simp only [Option.some.injEq] at h; subst h; rfl
    · simp at h
  | gather => exact absurd rfl hop

theorem no_leave (q : KV Nat Addr) (i : Info) : (leaveQueue q i).2.lotteryNo = 0 := leaveQueue_no q i

theorem no_move {q : KV Nat Addr} {a : Addr} {i : Info} (h : i.lotteryNo ≠ 0) : (moveBack q a i).2.lotteryNo = nextNo (q.erase i.lotteryNo) := by
  unfold moveBack lotteryDownshift lotteryAddNew lotteryExclude
  rw [if_pos h]

theorem no_move0 {q : KV Nat Addr} {a : Addr} {i : Info} (h : i.lotteryNo = 0) : (moveBack q a i).2.lotteryNo = 0 := by
  unfold moveBack; rw [if_neg (by simpa using h)]; exact h

/-- Everybody else's number is smaller than the one given out next. -/
theorem Linked.others_before {s : State} (h : Linked s) {x y : Addr} (hxy : y ≠ x) (hy : no s y ≠ 0) :
    no s y < nextNo (s.queue.erase (no s x)) := by
  apply lt_nextNo
  refine KV.mem_keys.2 ⟨y, ?_⟩
  rw [KV.get_erase_ne]
  · exact h.bwd y hy
  · intro he
    have h1 := h.bwd y hy
    rw [he] at h1
    have h2 := h.bwd x (by rw [← he]; exact hy)
    rw [h1] at h2
    exact hxy (Option.some.inj h2)

/-- How the number of the subject changes: it stays, it is given up, or it becomes the last one. -/
theorem no_subject (e : Env) (s : State) {op : Op} (hl : Linked s) (hop : op ≠ .gather) (x : Addr) :
    no (op.run e s) x = no s x ∨ no (op.run e s) x = 0 ∨ (no s x ≠ 0 ∧ no (op.run e s) x = nextNo (s.queue.erase (no s x))) := by
  by_cases hx : op.subject = some x
  swap
  · exact Or.inl (no_other e s hop hx)
  have key : ∀ {s' t : State} {f : KV Nat Addr → Info → KV Nat Addr × Info}, s'.records = s.records → s'.queue = s.queue →
      update s' x f = some t → (∀ q i, (f q i).2.lotteryNo = i.lotteryNo ∨ (f q i).2.lotteryNo = 0 ∨
        (i.lotteryNo ≠ 0 ∧ (f q i).2.lotteryNo = nextNo (q.erase i.lotteryNo))) →
      no t x = no s x ∨ no t x = 0 ∨ (no s x ≠ 0 ∧ no t x = nextNo (s.queue.erase (no s x))) := by
    intro s' t f hr hq h hf
    obtain ⟨i, hi, rfl⟩ := update_eq.1 h
    rw [hr] at hi
    have e1 : no s x = i.lotteryNo := no_eq hi
    have e2 : no { s' with records := s'.records.set x (f s'.queue i).2, queue := (f s'.queue i).1 } x = (f s'.queue i).2.lotteryNo :=
      no_eq (KV.get_set_self ..)
    rw [e1, e2, hq]
    exact hf _ _
  have hset : ∀ {t : State} {i j : Info}, s.records.get x = some i → t.records = s.records.set x j → j.lotteryNo = i.lotteryNo → no t x = no s x := by
    intro t i j hi ht hj
    rw [no_eq hi, no_eq (s := t) (i := j) (by rw [ht, KV.get_set_self]), hj]
  cases op with
  | switchOn a k =>
    cases hx
    refine getD_rec (Q := fun t => no t x = no s x ∨ no t x = 0 ∨ (no s x ≠ 0 ∧ no t x = nextNo (s.queue.erase (no s x)))) (Or.inl rfl) fun t h => ?_
    obtain ⟨-, -, -, q, st, -, -, -, rfl⟩ := switchOn_some h
    left
    unfold no
    rw [register_get, if_pos rfl]
    cases s.records.get x <;> rfl
  | switchOff a =>
    cases hx
    refine getD_rec (Q := fun t => no t x = no s x ∨ no t x = 0 ∨ (no s x ≠ 0 ∧ no t x = nextNo (s.queue.erase (no s x)))) (Or.inl rfl) fun t h => ?_
    refine key rfl rfl h ?_
    intro q i
    split
    · exact Or.inr (Or.inl (no_leave ..))
    · exact Or.inl rfl
  | unjail a =>
    cases hx
    refine getD_rec (Q := fun t => no t x = no s x ∨ no t x = 0 ∨ (no s x ≠ 0 ∧ no t x = nextNo (s.queue.erase (no s x)))) (Or.inl rfl) fun t h => ?_
    obtain ⟨i, q, hi, -, -, -, ⟨-, st, -, rfl⟩ | ⟨-, rfl⟩⟩ := unjail_some h
    · exact Or.inl (hset hi rfl rfl)
    · exact Or.inl (hset hi rfl rfl)
  | statusUpdate a =>
    cases hx
    refine getD_rec (Q := fun t => no t x = no s x ∨ no t x = 0 ∨ (no s x ≠ 0 ∧ no t x = nextNo (s.queue.erase (no s x)))) (Or.inl rfl) fun t h => ?_
    rcases onStatusUpdate_some h with rfl | ⟨-, -, h⟩
    · exact Or.inl rfl
    · refine key rfl rfl h ?_
      intro q i
      split
      · exact Or.inr (Or.inl (no_leave ..))
      · exact Or.inl rfl
  | stakeChanged a =>
    cases hx
    exact getD_rec (Q := fun t => no t x = no s x ∨ no t x = 0 ∨ (no s x ≠ 0 ∧ no t x = nextNo (s.queue.erase (no s x)))) (Or.inl rfl)
      fun t h => Or.inl (no_stakeChanged h x)
  | proposed a =>
    cases hx
    refine getD_rec (Q := fun t => no t x = no s x ∨ no t x = 0 ∨ (no s x ≠ 0 ∧ no t x = nextNo (s.queue.erase (no s x)))) (Or.inl rfl) fun t h => ?_
    refine key (s' := { s with proposers := s.proposers.set (e.height - 1) x }) rfl rfl h ?_
    intro q i
    by_cases h0 : i.lotteryNo = 0
    · exact Or.inr (Or.inl (no_move0 h0))
    · exact Or.inr (Or.inr ⟨h0, no_move (i := { i with proposed := i.proposed + 1 }) h0⟩)
  | tick a =>
    cases hx
    refine getD_rec (Q := fun t => no t x = no s x ∨ no t x = 0 ∨ (no s x ≠ 0 ∧ no t x = nextNo (s.queue.erase (no s x)))) (Or.inl rfl) fun t h => ?_
    refine key rfl rfl h ?_
    intro q i
    left
    dsimp only
    split <;> rfl
  | stroke a =>
    cases hx
    refine getD_rec (Q := fun t => no t x = no s x ∨ no t x = 0 ∨ (no s x ≠ 0 ∧ no t x = nextNo (s.queue.erase (no s x)))) (Or.inl rfl) fun t h => ?_
    refine key rfl rfl h ?_
    intro q i
    dsimp only
    split
    · exact Or.inl rfl
    · split
      · exact Or.inr (Or.inl (no_leave ..))
      · by_cases h0 : i.lotteryNo = 0
        · exact Or.inr (Or.inl (no_move0 h0))
        · exact Or.inr (Or.inr ⟨h0, no_move (i := i.struck) h0⟩)
  | byzantine a =>
    cases hx
    refine getD_rec (Q := fun t => no t x = no s x ∨ no t x = 0 ∨ (no s x ≠ 0 ∧ no t x = nextNo (s.queue.erase (no s x)))) (Or.inl rfl) fun t h => ?_
    refine key rfl rfl h ?_
    intro q i
    dsimp only
    split
    · exact Or.inr (Or.inl (no_leave ..))
    · by_cases h0 : i.lotteryNo = 0
      · exact Or.inr (Or.inl (no_move0 h0))
      · exact Or.inr (Or.inr ⟨h0, no_move (i := { i with infractions := i.infractions + 1 }) h0⟩)
  | addStaff a =>
    cases hx
    left
    show no (addToStaff s x) x = no s x
    unfold addToStaff
    cases hg : s.records.get x with
    | some i => exact hset hg rfl rfl
    | none => unfold no; simp only [KV.get_set_self, hg]; rfl
  | removeStaff a =>
    cases hx
    show no (removeFromStaff e s x) x = no s x ∨ no (removeFromStaff e s x) x = 0 ∨ _
    rcases removeFromStaff_cases e s x with h | ⟨i, hi, -, s1, h1, h⟩
    · rw [h]; exact Or.inl rfl
    · have g1 : no s1 x = no s x := hset (j := { i with staff := false }) hi (by rw [h1]) rfl
      rcases h with h | ⟨-, s2, h2, h⟩
      · rw [h]; exact Or.inl g1
      · have g2 : no s2 x = no s x ∨ no s2 x = 0 := by
          rcases onStatusUpdate_some h2 with rfl | ⟨-, -, h2⟩
          · exact Or.inl g1
          · obtain ⟨j, hj, rfl⟩ := update_eq.1 h2
            rw [no_eq (KV.get_set_self ..)]
            rw [← g1, no_eq hj]
            split
            · exact Or.inr (no_leave ..)
            · exact Or.inl rfl
        have g3 : no (removeFromStaff e s x) x = no s2 x := by
          rcases h with h | h
          · rw [h]
          · exact no_stakeChanged h x
        rcases g2 with g2 | g2
        · exact Or.inl (g3.trans g2)
        · exact Or.inr (Or.inl (g3.trans g2))
  | amnesty => cases hx
  | setParams p => cases hx
  | gather => exact absurd rfl hop

/-- C34, the correspondence, for executions without a stake drop of a queued validator below the criteria (see
`C34_entry_lost`): every queue entry names the account whose record carries its number, every numbered record has its entry, and
only active validators have numbers. -/
theorem C34_partial {s : State} (hs : Start s) {l : List (Env × Op)} (hsort : ∀ x ∈ l, SortOk x.1.sort) (hc : Calm l s) :
    (∀ n a, (runs l s).queue.get n = some a ↔ n ≠ 0 ∧ ∃ i, (runs l s).records.get a = some i ∧ i.lotteryNo = n) ∧
    (∀ a i, (runs l s).records.get a = some i → i.lotteryNo ≠ 0 → i.isActive = true) := by
  have hl := hs.linked.runs hs.good hsort hc
  refine ⟨?_, hl.active⟩
  intro n a
  constructor
  · intro h
    obtain ⟨h0, h1⟩ := hl.fwd n a h
    refine ⟨h0, ?_⟩
    unfold no at h1
    cases hg : (runs l s).records.get a with
    | none => rw [hg] at h1; exact absurd h1.symm h0
    | some i => rw [hg] at h1; exact ⟨i, rfl, h1⟩
  · rintro ⟨h0, i, hi, rfl⟩
    have := hl.bwd a (by rw [no_eq hi]; exact h0)
    rw [no_eq hi] at this
    exact this

/-- C34, the order, in the same executions: whatever operation comes next,
* whoever gets a new place gets the last one (behind everybody who keeps theirs);
* nobody else's number changes, except that at a block end top validators lose theirs;
* whoever proposes a block, or misses one without being jailed, goes behind everybody else. -/
theorem C34_order_partial {s : State} (hs : Start s) {l : List (Env × Op)} (hsort : ∀ x ∈ l, SortOk x.1.sort) (hc : Calm l s)
    {e : Env} (he : SortOk e.sort) (op : Op) :
    (∀ x y, no (op.run e (runs l s)) x ≠ 0 → no (op.run e (runs l s)) x ≠ no (runs l s) x → y ≠ x →
      no (op.run e (runs l s)) y ≠ 0 → no (op.run e (runs l s)) y = no (runs l s) y →
      no (op.run e (runs l s)) y < no (op.run e (runs l s)) x) ∧
    (∀ y, op.subject ≠ some y → no (op.run e (runs l s)) y ≠ no (runs l s) y → op = .gather ∧
      (no (runs l s) y = 0 ∨ (no (op.run e (runs l s)) y = 0 ∧ validatorState (op.run e (runs l s)) y = .top))) ∧
    (∀ x y, op = .proposed x → no (runs l s) x ≠ 0 → y ≠ x → no (op.run e (runs l s)) y < no (op.run e (runs l s)) x) := by
  have hg := hs.good.runs hsort
  have hl := hs.linked.runs hs.good hsort hc
  generalize runs l s = r at hg hl
  by_cases hop : op = .gather
  · subst hop
    obtain ⟨t, u, ht⟩ := hg.total he
    have hrun : (Op.gather).run e r = t := by show ((gather e r).map Prod.fst).getD r = t; rw [ht]; rfl
    rw [hrun]
    obtain ⟨-, top, rest, mid, O, S⟩ := hg.gather he ht
    have hm := O.midLinked hl
    have hlt := O.linked hl
    -- numbers after the selection
    have hrest : ∀ y, no t y ≠ 0 → ∃ x ∈ rest, x.acc = y ∧ no t y = x.no ∧ no r y = x.info.lotteryNo := by
      intro y hy
      unfold no at hy
      cases hgt : t.records.get y with
      | none => rw [hgt] at hy; exact absurd rfl hy
      | some j =>
        rw [hgt] at hy
        have ha := hlt.active y j hgt hy
        obtain ⟨x, hx, rfl, rfl⟩ := S.of_record hgt (Or.inl ha)
        rcases List.mem_append.1 hx with hx' | hx'
        · exact absurd (S.ofTop x hx').2 hy
        · exact ⟨x, hx', rfl, no_eq hgt, no_eq (S.mem x hx).1⟩
    refine ⟨?_, ?_, fun x y h => by cases h⟩
    · intro a b ha hab hba hb hbb
      obtain ⟨x, hx, rfl, h1, h2⟩ := hrest a ha
      obtain ⟨y, hy, rfl, h3, h4⟩ := hrest b hb
      obtain ⟨-, -, c3, c4⟩ := O.ofRest x hx
      have hx0 : x.info.lotteryNo = 0 := by
        by_contra h0
        rw [h1, h2, c3 h0] at hab; exact hab rfl
      have hymid : no mid y.acc = no r y.acc := by
        rw [O.midNo, if_neg]
        intro hin
        have := S.nodup
        rw [List.map_append, List.nodup_append] at this
        exact this.2.2 _ hin _ (List.mem_map_of_mem hy) rfl
      have hk : no r y.acc ∈ mid.queue.keys := by
        refine KV.mem_keys.2 ⟨y.acc, ?_⟩
        rw [← hymid]
        exact hm.bwd y.acc (by rw [hymid, ← hbb]; exact hb)
      rw [hbb, h1]
      exact (c4 hx0).2 _ hk
    · intro y _ hne
      refine ⟨rfl, ?_⟩
      by_cases h0 : no r y = 0
      · exact Or.inl h0
      right
      unfold no at h0
      cases hgr : r.records.get y with
      | none => rw [hgr] at h0; exact absurd rfl h0
      | some i =>
        rw [hgr] at h0
        have ha := hl.active y i hgr h0
        obtain ⟨x, hx, rfl, rfl⟩ := S.cover y i hgr ha
        rcases List.mem_append.1 hx with hx' | hx'
        · exact ⟨by rw [no_eq (S.row x hx)]; exact (S.ofTop x hx').2, S.top_iff.2 (List.mem_map_of_mem hx')⟩
        · exfalso
          apply hne
          rw [no_eq (S.row x hx), no_eq hgr]
          exact (O.ofRest x hx').2.2.1 h0
  · refine ⟨?_, ?_, ?_⟩
    · intro x y hx hxn hyx hy hyn
      rcases no_subject e r hl hop x with h | h | ⟨-, h⟩
      · exact absurd h hxn
      · exact absurd h hx
      · rw [hyn, h]
        exact hl.others_before hyx (by rw [← hyn]; exact hy)
    · intro y hy hne
      exact absurd (no_other e r hop hy) hne
    · rintro x y rfl hx0 hyx
      have hother : no ((Op.proposed x).run e r) y = no r y := no_other e r hop (fun h => hyx (Option.some.inj h).symm)
      have hxt : no ((Op.proposed x).run e r) x = nextNo (r.queue.erase (no r x)) := by
        unfold no at hx0
        cases hgr : r.records.get x with
        | none => rw [hgr] at hx0; exact absurd rfl hx0
        | some i =>
          rw [hgr] at hx0
          have hu : markProposed e r x = some _ := update_eq.2 ⟨i, hgr, rfl⟩
          show no ((markProposed e r x).getD r) x = _
          rw [hu, Option.getD_some, no_eq (KV.get_set_self ..), no_eq hgr]
          exact no_move (i := { i with proposed := i.proposed + 1 }) hx0
      rw [hother, hxt]
      by_cases h0 : no r y = 0
      · rw [h0]; exact Nat.pos_of_ne_zero (nextNo_pos _)
      · exact hl.others_before hyx h0

/-- One top place and two in the queue; the first of the queue proposes a block and goes to the end. -/
example : Calm (Ex.three ++ [(Ex.env 3, .proposed 2)]) (Ex.start 1 1) ∧
    (no (runs Ex.three (Ex.start 1 1)) 1, no (runs Ex.three (Ex.start 1 1)) 2, no (runs Ex.three (Ex.start 1 1)) 3) = (0, 1, 2) ∧
    (no (runs (Ex.three ++ [(Ex.env 3, .proposed 2)]) (Ex.start 1 1)) 2, no (runs (Ex.three ++ [(Ex.env 3, .proposed 2)]) (Ex.start 1 1)) 3) = (3, 2) := by
  refine ⟨?_, by decide +kernel, by decide +kernel⟩
  simp [Calm, Ex.three]

/-- The full claim fails: `OnStakeChanged` deletes the queue entry of a validator that no longer qualifies and leaves the number in
the record; the number is then given to somebody else. -/
theorem C34_entry_lost : ∃ (s : State) (l : List (Env × Op)), Start s ∧ (∀ x ∈ l, SortOk x.1.sort) ∧
    no (runs l s) 2 = 1 ∧ no (runs l s) 3 = 1 ∧ (runs l s).queue.get 1 = some 3 := by
  refine ⟨Ex.start 1 1, [(Ex.env 1, .switchOn 1 71), (Ex.env 1, .switchOn 2 72), (Ex.env 1, .gather), (Ex.env 2 (stake := 10), .stakeChanged 2),
    (Ex.env 3, .switchOn 3 73), (Ex.env 3, .gather)], Ex.start_ok 1 1 (by omega), ?_, by decide +kernel, by decide +kernel, by decide +kernel⟩
  intro x hx
  simp only [List.mem_cons, List.not_mem_nil, or_false] at hx
  rcases hx with rfl | rfl | rfl | rfl | rfl | rfl <;> exact sortBefore_ok

end Verif.Noding
