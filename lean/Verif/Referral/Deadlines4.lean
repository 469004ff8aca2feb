import Verif.Referral.Deadlines3
import Verif.Referral.Props2

/-! Property C65: the dates of downgrade, compression and banishment in the records are backed by tasks of the scheduler; executions. -/
namespace Verif.Referral
open Relation
open Verif.Schedule (Pending)

/-- What happens to this module: an operation, or a block begins and the scheduler takes the tasks that are due off its list
(`PerformSchedule`, /repo/x/schedule/keeper/keeper.go; the handlers it calls are operations that follow). -/
inductive Ev where
  | op (e : Env) (o : Op)
  | block (now : Int)

def Ev.step : Ev → State → State
  | .op e o, s => Referral.step e o s
  | .block now, s => { s with now := now, sched := (Schedule.performSchedule (fun _ _ _ => none) now s.sched).1 }

def live : List Ev → State → State
  | [], s => s
  | v :: l, s => live l (v.step s)

/-- What is asked: time does not run backwards; the dates in the genesis file come with their tasks; a change of
balance that would delete the task of a banishment does not fail halfway (within a transaction this means that it is rolled back, and is no
step at all).  The rest is as for C24. -/
def datesOk : Ev → State → Prop
  | .block now, s => s.now ≤ now
  | .op _ (.world now _ _ _), s => s.now ≤ now
  | .op _ (.times k c b d _ _), s => (∀ t, c = some t → Booked s.sched t 7 k) ∧ (∀ t, b = some t → Booked s.sched t 9 k) ∧
      (∀ t, d = some t → Booked s.sched t 6 k)
  | .op e (.balance a p), s => (setPurse e a p s).1 = .ok () ∨ Harmless (infoOf s.store (text a)) s.dust p.delegated
  | .op _ o, s => structureOk o s

/-- Every step meets the condition. -/
def Living : List Ev → State → Prop
  | [], _ => True
  | v :: l, s => datesOk v s ∧ Living l (v.step s)

theorem datesOk.structure {e : Env} {o : Op} {s : State} (h : datesOk (.op e o) s) : structureOk o s := by
  cases o <;> first | exact h | trivial

theorem tx_safe {α : Type} {m : Act α} {s : State} (hs : Safe s) (h : ∀ a t, m s = (.ok a, t) → Safe t) : Safe (M.tx m s) := by
  rcases M.tx_cases m s with ⟨x, hx⟩ | ⟨-, hx⟩
  · exact h x _ hx
  · rw [hx]; exact hs

theorem Safe.later {s : State} (hs : Safe s) {n d p : Int} {c : Addr} (hn : s.now ≤ n) : Safe { s with now := n, dust := d, price := p, collector := c } := by
  intro κ k t hE hd ht
  exact hs κ k t hE hd (Int.lt_of_le_of_lt hn ht)

theorem block_safe {s : State} (hs : Safe s) {n : Int} (hn : s.now ≤ n) : Safe ((Ev.block n).step s) := by
  intro κ k t hE hd ht
  have ht : n < t := ht
  obtain ⟨x, hx, h1, h2⟩ := hs κ k t hE hd (Int.lt_of_le_of_lt hn ht)
  refine ⟨x, Schedule.performSchedule_pending_of ?_ (by rw [h1]; exact ht), h1, h2⟩
  exact Schedule.runTasks_pending hx fun _ _ _ _ _ _ hc => by cases hc

theorem step_safe (e : Env) (op : Op) (s : State) (hg : Good s) (hs : Safe s) (h : datesOk (.op e op) s) : Safe (step e op s) := by
  cases op with
  | top k => exact tx_safe hs fun _ t h => addTopLevel_safe hs h
  | child p c =>
    refine tx_safe hs fun _ t h => ?_
    exact (appendChild_safe hs h).2.2.mono fun _ _ _ hc => absurd hc.1 (by simp)
  | banished k f =>
    refine tx_safe hs fun _ t h => ?_
    unfold importBanished at h
    simp at h
    rw [← h]
    intro κ j d hE hd hn
    rw [infoOf_set] at hd
    split at hd
    · cases κ <;> cases hd
    · exact hs κ j d hE hd hn
  | times k c b d x n =>
    refine tx_safe hs fun _ t h' => ?_
    unfold importTimes at h'
    simp at h'
    rw [← h']
    intro κ j y hE hd hn
    rw [infoOf_set] at hd
    split at hd
    · rename_i hj
      rw [hj]
      cases κ with
      | downgrade => exact h.2.2 y hd
      | compression =>
        refine h.1 y ?_
        unfold Info.date at hd
        dsimp only at hd
        split at hd
        · exact hd
        · cases hd
      | banishment => exact h.2.1 y hd
    · exact hs κ j y hE hd hn
  | activate k => exact tx_safe hs fun _ t h => setActive_safe hs h
  | register c p a => exact tx_safe hs fun _ t h => register_safe hs h
  | comeBack k => exact tx_safe hs fun _ t h => returnIfBanished_safe hs h
  | subscribe k =>
    refine tx_safe hs fun _ t h => ?_
    unfold subscribe at h
    rw [M.bind_ok_iff] at h
    obtain ⟨_, s1, h1, h⟩ := h
    exact setActive_safe (returnIfBanished_safe hs h1) h
  | expire k => exact expire_safe hs
  | balance a p =>
    have h : (setPurse e a p s).1 = .ok () ∨ Harmless (infoOf s.store (text a)) s.dust p.delegated := h
    rcases h with h | h
    · exact setPurse_safe hs (t := (setPurse e a p s).2) (by rw [← h])
    · exact setPurse_harmless hs h
  | request k d => exact tx_safe hs fun _ t h => requestTransition_safe hs h
  | resolve g k b =>
    refine tx_safe hs fun _ t h' => ?_
    unfold resolveTransition at h'
    rw [M.get_bind_ok, M.errIf_bind_ok] at h'
    obtain ⟨-, h'⟩ := h'
    split at h'
    · exact affirmTransition_safe hs h'
    · unfold cancelTransition setInfo at h'
      rw [M.get_bind_ok] at h'
      simp at h'
      rw [← h']
      exact setInfo_safe hs fun κ => date_congr (w := { infoOf s.store k with transition := none }) (v := infoOf s.store k) rfl rfl rfl rfl κ
  | downgrade k => exact bunch_safe (.downgradeBody k) (.downgradeBody k) hs fun t ht => keep_downgradeBody k s.fresh true t ht hs
  | compression k =>
    show Safe (performCompression e k s).2
    unfold performCompression
    rw [M.bind_ok (M.get_apply s)]
    split
    · exact hs
    · exact bunch_safe (.compressBody _) (.compressBody k) hs fun _ ht => compressBody_dated hg hs ht
  | timeout k =>
    exact setInfo_safe hs fun κ => date_congr (w := { infoOf s.store k with transition := none }) (v := infoOf s.store k) rfl rfl rfl rfl κ
  | banish k =>
    show Safe (banish e k s).2
    unfold banish
    have := bunch_safe (e := e) (.banishBody k) (.banishBody k) hs fun t ht => keep_banishBody k s.fresh true t ht hs
    rw [M.bind_apply]
    rcases hb : bunch e (banishBody k) s with ⟨r, t⟩
    rw [hb] at this
    cases r with
    | ok _ =>
      dsimp only
      generalize (!e.call .banished k) = x
      cases x <;> exact this
    | err => exact this
    | panic => exact this
  | world n d p c => exact hs.later h

theorem live_safe : ∀ (l : List Ev) (s : State), Good s → Safe s → Living l s → Safe (live l s)
  | [], _, _, hs, _ => hs
  | .op e o :: l, s, hg, hs, h => live_safe l _ (step_good e o s hg h.1.structure) (step_safe e o s hg hs h.1) h.2
  | .block n :: l, s, hg, hs, h => live_safe l ((Ev.block n).step s) hg (block_safe hs h.1) h.2

/-! ### The property -/

/-- After any history, an account whose record holds a date in the future for a downgrade, a compression (if it has a referrer) or a
banishment has a task on the list of the scheduler for that moment and that purpose. -/
theorem C65_dates_have_tasks_partial (l : List Ev) (s : State) (h0 : s.start) (h : Living l s) (k : Key) (t : Int) (ht : (live l s).now < t) :
    ((infoOf (live l s).store k).downgradeAt = some t → ∃ x, Pending (live l s).sched x ∧ x.time = t ∧ x.handler = 6 ∧ x.data = [k]) ∧
    ((infoOf (live l s).store k).compressionAt = some t → (infoOf (live l s).store k).referrer ≠ none →
      ∃ x, Pending (live l s).sched x ∧ x.time = t ∧ x.handler = 7 ∧ x.data = [k]) ∧
    ((infoOf (live l s).store k).banishmentAt = some t → ∃ x, Pending (live l s).sched x ∧ x.time = t ∧ x.handler = 9 ∧ x.data = [k]) := by
  have start : Safe s := by
    intro κ j d _ hd _
    have h0 : s.store = KV.empty := h0
    rw [h0] at hd
    cases κ <;> cases hd
  have hs := live_safe l s (start_good h0) start h
  refine ⟨fun hd => hs .downgrade k t id hd ht, fun hd hr => hs .compression k t id ?_ ht, fun hd => hs .banishment k t id hd ht⟩
  unfold Info.date
  dsimp only
  rw [if_pos (Option.isSome_iff_ne_none.2 hr)]
  exact hd

/-- And the first block that reaches the date calls the handler for the account, whatever the other handlers do. -/
theorem C65_dates_are_kept_partial (l : List Ev) (s : State) (h0 : s.start) (h : Living l s) (k : Key) (t : Int) (ht : (live l s).now < t)
    (now : Int) (hn : t ≤ now) (handlers : Schedule.Handlers) :
    ((infoOf (live l s).store k).downgradeAt = some t →
      ∃ x ∈ (Schedule.performSchedule handlers now (live l s).sched).2, x.handler = 6 ∧ x.data = [k]) ∧
    ((infoOf (live l s).store k).compressionAt = some t → (infoOf (live l s).store k).referrer ≠ none →
      ∃ x ∈ (Schedule.performSchedule handlers now (live l s).sched).2, x.handler = 7 ∧ x.data = [k]) ∧
    ((infoOf (live l s).store k).banishmentAt = some t →
      ∃ x ∈ (Schedule.performSchedule handlers now (live l s).sched).2, x.handler = 9 ∧ x.data = [k]) := by
  have called : ∀ hook, (∃ x, Pending (live l s).sched x ∧ x.time = t ∧ x.handler = hook ∧ x.data = [k]) →
      ∃ x ∈ (Schedule.performSchedule handlers now (live l s).sched).2, x.handler = hook ∧ x.data = [k] := by
    rintro hook ⟨x, ⟨b, hb, hx⟩, h1, h2⟩
    refine ⟨x, ?_, h2⟩
    rw [Schedule.performSchedule_log]
    simp only [List.mem_flatten, List.mem_map, List.mem_filter, decide_eq_true_eq]
    exact ⟨b, ⟨(x.time, b), ⟨KV.mem_entries.2 hb, by simp; omega⟩, rfl⟩, hx⟩
  obtain ⟨h1, h2, h3⟩ := C65_dates_have_tasks_partial l s h0 h k t ht
  exact ⟨fun hd => called 6 (h1 hd), fun hd hr => called 7 (h2 hd hr), fun hd => called 9 (h3 hd)⟩

/-! ### Example -/

/-- Account 4 subscribes, invites account 6, lets the subscription end, and is compressed two months later. -/
def life : List Ev :=
  [.op yes (.top 2), .op yes (.register 4 2 true), .op yes (.register 6 4 true), .op yes (.balance 2 { main := 7 }), .op yes (.expire 4),
   .block 5184100, .op yes (.compression 4), .block 5184200, .op yes (.world 5184300 0 0 0)]

example : empty0.start ∧ Living life empty0 := by
  have ne : ∀ a b : Key, a ≠ b → a ≠ b := fun _ _ h => h
  have e1 : (setPurse yes 2 { main := 7 } (live (life.take 3) empty0)).1 = .ok () := by
    have : ((setPurse yes 2 { main := 7 } (live (life.take 3) empty0)).1 matches .ok ()) = true := by decide +kernel
    revert this
    generalize (setPurse yes 2 { main := 7 } (live (life.take 3) empty0)).1 = r
    cases r <;> simp
  have e2 : (live (life.take 5) empty0).now ≤ 5184100 := by decide +kernel
  have e3 : (live (life.take 7) empty0).now ≤ 5184200 := by decide +kernel
  have e4 : (live (life.take 8) empty0).now ≤ 5184300 := by decide +kernel
  exact ⟨rfl, trivial, ne 4 2 (by decide), ne 6 4 (by decide), .inl e1, trivial, e2, trivial, e3, e4, trivial⟩

example : (infoOf (live (life.take 5) empty0).store 4).compressionAt = some 5184100 ∧
    (infoOf (live life empty0).store 4).banishmentAt = some 7776100 ∧ (live life empty0).now < 7776100 ∧
    (live life empty0).sched.store.entries.map (fun e => (e.1, e.2.map fun t => (t.handler, t.data))) = [(7776100, [(9, [4])])] := by
  decide +kernel

/-! ### What the condition excludes -/

theorem booked_iff {sch : Schedule.State} {t : Int} {h : Nat} {k : Key} :
    Booked sch t h k ↔ ((sch.store.get t).getD []).any (fun x => x.time == t && x.handler == h && x.data == [k]) = true := by
  rw [List.any_eq_true]
  constructor
  · rintro ⟨x, ⟨l, hl, hx⟩, h1, h2, h3⟩
    refine ⟨x, ?_, by simp [h1, h2, h3]⟩
    rw [← h1, hl]
    exact hx
  · rintro ⟨x, hx, hb⟩
    simp only [Bool.and_eq_true, beq_iff_eq] at hb
    obtain ⟨⟨h1, h2⟩, h3⟩ := hb
    refine ⟨x, ?_, h1, h2, h3⟩
    cases hg : sch.store.get t with
    | none => rw [hg] at hx; cases hx
    | some l =>
      rw [hg] at hx
      exact ⟨l, by rw [h1]; exact hg, hx⟩

theorem times_ok {e : Env} {k : Key} {t : Int} {n : Nat} {s : State} (h : Booked s.sched t 7 k) :
    datesOk (.op e (.times k (some t) none none none n)) s :=
  ⟨fun _ hx => Option.some.inj hx ▸ h, nofun, nofun⟩

theorem living_of : ∀ (l : List Ev) (s : State), (∀ i v, l[i]? = some v → datesOk v (live (l.take i) s)) → Living l s
  | [], _, _ => trivial
  | v :: l, s, h => ⟨h 0 v rfl, living_of l (v.step s) fun i w hw => h (i + 1) w hw⟩

/-- As `shortened`; the last account is compressed, too, when its delegation is dust, and then the limit for dust is lowered. -/
def lowered : List (Env × Op) :=
  line ++ [(fine, .balance 11 { delegated := 7 }), (fine, .times (text 0) none none none none 5), (fine, .times (text 1) (some 5) none none none 1),
    (fine, .times (text 11) (some 5) none none none 1), (fine, .world 6 10 0 99), (fine, .compression (text 1)), (fine, .compression (text 11)),
    (fine, .world 7 0 0 99)]

def waiting : State := { poor with sched := ((Schedule.schedule? awaiting.sched 5 compressionHook [text 11]).getD Schedule.State.empty) }

def lowering : List Ev := lowered.map fun x => .op x.1 x.2

/-- C65 fails for a withdrawal that leaves more than dust, is refused because of an ancestor (see C58) and is not rolled back: the account
keeps the date of its banishment, but the task is gone. -/
theorem C65_refused_withdrawal_violation : ∃ (l : List Ev) (s : State) (a : Addr) (p : Purse) (d : Int), s.start ∧ Living l s ∧
    (setPurse fine a p (live l s)).1 = .err ∧ (setPurse fine a p (live l s)).2.now < d ∧
    (infoOf (setPurse fine a p (live l s)).2.store (text a)).banishmentAt = some d ∧
    ¬ ∃ x, Pending (setPurse fine a p (live l s)).2.sched x ∧ x.time = d ∧ x.handler = 9 ∧ x.data = [text a] := by
  refine ⟨lowering, waiting, 11, { delegated := 3 }, 306, rfl, ?_, by decide +kernel, by decide +kernel, by decide +kernel, ?_⟩
  · have ne : ∀ a b : Key, a ≠ b → a ≠ b := fun _ _ h => h
    have b1 : Booked (live (lowering.take 14) waiting).sched 5 7 (text 1) := booked_iff.2 (by decide +kernel)
    have b2 : Booked (live (lowering.take 15) waiting).sched 5 7 (text 11) := booked_iff.2 (by decide +kernel)
    have c1 : (live (lowering.take 16) waiting).now ≤ 6 := by decide +kernel
    have c2 : (live (lowering.take 19) waiting).now ≤ 7 := by decide +kernel
    have c3 : (infoOf (live (lowering.take 12) waiting).store (text 11)).banishmentAt = none := by decide +kernel
    have none' : ∀ {P : Int → Prop}, ∀ t, (none : Option Int) = some t → P t := fun _ h => nomatch h
    refine living_of _ _ fun i v h => ?_
    match i, h with
    | 0, h => obtain rfl : Ev.op fine (.top (text 0)) = v := Option.some.inj h; trivial
    | 1, h => obtain rfl : Ev.op fine (.child (text 0) (text 1)) = v := Option.some.inj h; exact ne (text 1) (text 0) (by decide)
    | 2, h => obtain rfl : Ev.op fine (.child (text 1) (text 2)) = v := Option.some.inj h; exact ne (text 2) (text 1) (by decide)
    | 3, h => obtain rfl : Ev.op fine (.child (text 2) (text 3)) = v := Option.some.inj h; exact ne (text 3) (text 2) (by decide)
    | 4, h => obtain rfl : Ev.op fine (.child (text 3) (text 4)) = v := Option.some.inj h; exact ne (text 4) (text 3) (by decide)
    | 5, h => obtain rfl : Ev.op fine (.child (text 4) (text 5)) = v := Option.some.inj h; exact ne (text 5) (text 4) (by decide)
    | 6, h => obtain rfl : Ev.op fine (.child (text 5) (text 6)) = v := Option.some.inj h; exact ne (text 6) (text 5) (by decide)
    | 7, h => obtain rfl : Ev.op fine (.child (text 6) (text 7)) = v := Option.some.inj h; exact ne (text 7) (text 6) (by decide)
    | 8, h => obtain rfl : Ev.op fine (.child (text 7) (text 8)) = v := Option.some.inj h; exact ne (text 8) (text 7) (by decide)
    | 9, h => obtain rfl : Ev.op fine (.child (text 8) (text 9)) = v := Option.some.inj h; exact ne (text 9) (text 8) (by decide)
    | 10, h => obtain rfl : Ev.op fine (.child (text 9) (text 10)) = v := Option.some.inj h; exact ne (text 10) (text 9) (by decide)
    | 11, h => obtain rfl : Ev.op fine (.child (text 10) (text 11)) = v := Option.some.inj h; exact ne (text 11) (text 10) (by decide)
    | 12, h => obtain rfl : Ev.op fine (.balance 11 { delegated := 7 }) = v := Option.some.inj h; exact .inr (.inr (.inr (.inr c3)))
    | 13, h => obtain rfl : Ev.op fine (.times (text 0) none none none none 5) = v := Option.some.inj h; exact ⟨none', none', none'⟩
    | 14, h => obtain rfl : Ev.op fine (.times (text 1) (some 5) none none none 1) = v := Option.some.inj h; exact times_ok b1
    | 15, h => obtain rfl : Ev.op fine (.times (text 11) (some 5) none none none 1) = v := Option.some.inj h; exact times_ok b2
    | 16, h => obtain rfl : Ev.op fine (.world 6 10 0 99) = v := Option.some.inj h; exact c1
    | 17, h => obtain rfl : Ev.op fine (.compression (text 1)) = v := Option.some.inj h; trivial
    | 18, h => obtain rfl : Ev.op fine (.compression (text 11)) = v := Option.some.inj h; trivial
    | 19, h => obtain rfl : Ev.op fine (.world 7 0 0 99) = v := Option.some.inj h; exact c2
    | n + 20, h => exact nomatch (show (none : Option Ev) = some v from h)
  · intro hx
    exact absurd (booked_iff.1 hx) (by decide +kernel)

end Verif.Referral
