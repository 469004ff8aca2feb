import Verif.Referral.Customer
import Verif.Referral.Dates

/-! Property C108: the end of a subscription is always carried out by the referral module. -/
namespace Verif.Referral
open Relation

theorem deactivate_succeeds {e : Env} (he : ∀ c k, e.call c k = true) {u : State} {k : Key} (hr : Ready { u with work := u.store, calls := [] })
    (ha : ∀ a, Affordable (view u.store a)) (h6 : Schedule.inRange (u.now + 60 * u.day) = true) :
    ∃ t, setActive e k false true u = (.ok (), t) := by
  have hper : u.compressionPeriod = 60 * u.day := by unfold State.compressionPeriod State.month; omega
  have key : ∃ b t, activeBody k false true { u with work := u.store, calls := [] } = (.ok b, t) := by
    unfold activeBody
    rw [M.bind_ok (M.get_apply _)]
    split
    · exact ⟨_, _, rfl⟩
    · have hself : ∃ w, activateSelf k false (infoOf u.store k) { u with work := u.store, calls := [] } =
            (.ok (w, (infoOf u.store k).referrer), { u with work := u.store, calls := [] }) ∧
          w.status = (infoOf u.store k).status ∧ w.tot .delegated = (infoOf u.store k).tot .delegated ∧
          w.activeReferrals = (infoOf u.store k).activeReferrals := by
        have et : ((infoOf u.store k).add (people false) 0).tot .delegated = (infoOf u.store k).tot .delegated := by
          funext j
          show (if j = 0 then (infoOf u.store k).tot .delegated j + 0 else _) = _
          split
          · omega
          · rfl
        unfold activateSelf
        rw [M.bind_ok (M.get_apply _)]
        cases hb : (infoOf u.store k).banishmentAt with
        | none => exact ⟨_, rfl, rfl, et, rfl⟩
        | some x => exact ⟨_, rfl, rfl, et, rfl⟩
      obtain ⟨w, hw, es, et, el⟩ := hself
      have hup := update_unchecked (k := k) hw
      rw [M.bind_ok hup]
      have hview : view (u.store.set k w) = upd (view u.store) k (core w) := view_set ..
      obtain ⟨t, ht⟩ := climb_mild (k0 := k) (f := fun l _ v =>
          let w := v.add (people false) l
          pure (if l = 1 then
              { w with activeReferrals := if false then addSorted v.activeReferrals k else removeOrdered v.activeReferrals k }
            else w)) (by
          intro l a v s
          have e1 : (v.add (people false) l).tot .delegated = v.tot .delegated := by
            funext j
            show (if j = l then v.tot .delegated j + 0 else _) = _
            split
            · omega
            · rfl
          by_cases hl : l = 1
          · refine ⟨{ v.add (people false) l with activeReferrals := removeOrdered v.activeReferrals k }, ?_, e1, rfl, fun c hc => .inl ?_⟩
            · dsimp only; rw [if_pos hl]; rfl
            · exact List.mem_of_mem_erase hc
          · refine ⟨v.add (people false) l, ?_, e1, rfl, fun c hc => .inl hc⟩
            dsimp only; rw [if_neg hl]; rfl) 10 1 (infoOf u.store k).referrer { u with work := u.store.set k w, calls := [] } (by
          refine ⟨⟨hr.low.store, LowSt.set hr.low.store (by rw [es]; exact hr.low.store k)⟩, fun x c hc => ?_, hr.soon⟩
          show (u.store.set k w).has c = true
          have hc : c ∈ (view (u.store.set k w) x).activeReferrals := hc
          rw [has_set, Bool.or_eq_true]
          right
          rw [hview] at hc
          by_cases hx : x = k
          · subst hx
            rw [upd_self] at hc
            have hc : c ∈ w.activeReferrals := hc
            rw [el] at hc
            exact hr.stored x c hc
          · rw [upd_ne _ _ hx] at hc
            exact hr.stored x c hc) (by show (u.store.set k w).has k = true; rw [has_set]; simp) (fun a => by
          show Affordable (view (u.store.set k w) a)
          rw [hview]
          by_cases hx : a = k
          · subst hx
            rw [upd_self]
            exact (ha a).congr fun x => by
              show w.tot .delegated x = _
              rw [et]; rfl
          · rw [upd_ne _ _ hx]; exact ha a)
      rw [M.bind_ok ht]
      split
      · obtain ⟨t', ht'⟩ := schedule_succeeds (time := u.now + u.compressionPeriod) (by rw [hper]; exact h6) compressionHook [k] t
        exact ⟨true, t', M.bind_ok (m := scheduleCompression k _) ht' ▸ rfl⟩
      · exact ⟨_, _, rfl⟩
  obtain ⟨b, w, hw⟩ := key
  have e0 : setActive e k false true u = (activeBody k false true >>= fun b => if b then commit e else pure ()) { u with work := u.store, calls := [] } := rfl
  rw [e0, M.bind_ok hw]
  exact commit_fine_res he b w

theorem upTo_sum (st : KV Nat Info) (a : Key) (m : Nat) :
    (view st a).delegatedUpTo m = ((List.range (m + 1)).map fun i => (infoOf st a).tot .delegated i).sum := by
  induction m with
  | zero => show (infoOf st a).tot .delegated 0 = _; simp
  | succ m ih =>
    rw [List.range_succ, List.map_append, List.sum_append, ← ih]
    show _ + (infoOf st a).tot .delegated (m + 1) = _
    simp

theorem lapse {S : State} {e : Env} (he : ∀ c k, e.call c k = true) {k : Key} (hl : Listed S) (hR : Roomy 0 S)
    (h4 : Schedule.inRange (S.now + 60 * S.day) = true) (hk : (infoOf S.store k).active = true) :
    ∃ t, setActive e k false true S = (.ok (), t) ∧ (infoOf t.store k).active = false ∧ (infoOf t.store k).banished = false ∧
      (infoOf t.store k).compressionAt = some (S.now + 60 * S.day) ∧ (infoOf t.store k).referrer = (infoOf S.store k).referrer ∧
      (∀ p, (infoOf S.store k).referrer = some p → k ∈ (infoOf t.store p).referrals) ∧ (∀ a, k ∉ (infoOf t.store a).activeReferrals) ∧
      ∀ j, j ≠ k → (infoOf t.store j).active = (infoOf S.store j).active ∧ (infoOf t.store j).referrer = (infoOf S.store j).referrer := by
  obtain ⟨t, ht⟩ := deactivate_succeeds (e := e) he (u := S) (k := k) ⟨⟨hR.low, hR.low⟩, hR.stored, hR.soon⟩ (fun a => hR.fits.affordable le_rfl a) h4
  have hstep : step e (.expire k) S = t := by
    show (setActive e k false true S).2 = t
    rw [ht]
  have it : Good t := hstep ▸ step_good e (.expire k) S hR.good trivial
  have il : Listed t := hstep ▸ step_listed e (.expire k) S hR.good hl trivial
  have hd := (C66_expire hk ht).1
  have hnb : (infoOf S.store k).banished = false := by
    cases hb : (infoOf S.store k).banished with
    | false => rfl
    | true =>
      have h1 : (infoOf S.store k).active = false := hl.asleep k hb
      rw [hk] at h1; cases h1
  have e0 : setActive e k false true S = (activeBody k false true >>= fun b => if b then commit e else pure ()) S.fresh := rfl
  rw [e0, M.bind_ok_iff] at ht
  obtain ⟨b, w, hb, hc⟩ := ht
  rcases activeBody_ok hb with ⟨-, -, ha⟩ | ⟨rfl, -, -, x, hv⟩
  · have ha : (infoOf S.store k).active = false := ha
    rw [hk] at ha; cases ha
  · rw [if_pos rfl, commit_fine he] at hc
    have hts : t.store = w.work := by cases hc; rfl
    have hv0 : view S.fresh.work = view S.store := rfl
    rw [hv0] at hv
    have all : ∀ j, (fun v : Info => (v.active, v.banished, v.referrer)) (view t.store j) = (fun v : Info => (v.active, v.banished, v.referrer))
        (upd (view S.store) k (activated (view S.store k) false (some (S.fresh.now + S.fresh.compressionPeriod)) x) j) := by
      intro j
      rw [hts, hv]
      exact climbV_all (π := fun v : Info => (v.active, v.banished, v.referrer)) (g := bump (people false) (relist false k))
        (bump_all (π := fun v : Info => (v.active, v.banished, v.referrer)) (L := relist false k) (fun _ _ => rfl) (fun _ => rfl)) 10 1 _ _ j
    have hk' := all k
    rw [upd_self] at hk'
    have r1 : (infoOf t.store k).active = false := (congrArg Prod.fst hk' :)
    have r2 : (infoOf t.store k).banished = (infoOf S.store k).banished := (congrArg (fun p => p.2.1) hk' :)
    have r3 : (infoOf t.store k).referrer = (infoOf S.store k).referrer := (congrArg (fun p => p.2.2) hk' :)
    refine ⟨t, by rw [e0, M.bind_ok hb, if_pos rfl, commit_fine he]; exact hc, r1, r2.trans hnb, hd, r3, fun p hp => ?_, fun a hka => ?_, fun j hj => ?_⟩
    · exact (it.mem p k).2 ⟨r3.trans hp, r2.trans hnb⟩
    · have h1 : (infoOf t.store k).active = true := ((il.mem a k).1 hka).2
      rw [r1] at h1; cases h1
    · have hj' := all j
      rw [upd_ne _ _ hj] at hj'
      exact ⟨(congrArg Prod.fst hj' :), (congrArg (fun p => p.2.2) hj' :)⟩

/-! ### The property -/

/-- **C108** for all executions in which nobody registers as their own referrer and the genesis file is in order, when the callbacks of other modules
succeed, the stored sums of delegations are not negative and below 2⁶⁴, and the times involved are before 2263. -/
theorem C108_lapses_partial (l : List (Env × Op)) (s : State) (h0 : s.start) (hw : s.work = KV.empty) (h : Along (fun op s => activesOk op s ∧ lowOk op s) l s)
    (e : Env) (he : ∀ c k, e.call c k = true) (k : Key) :
    let S := run l s
    (infoOf S.store k).active = true →
    (∀ a n, n ≤ 10 → 0 ≤ ((List.range (n + 1)).map fun i => (infoOf S.store a).tot .delegated i).sum ∧
      ((List.range (n + 1)).map fun i => (infoOf S.store a).tot .delegated i).sum < 18446744073709551616) →
    Schedule.inRange (S.now + 2 * S.day) = true → Schedule.inRange (S.now + 60 * S.day) = true →
    ∃ t, setActive e k false true S = (.ok (), t) ∧ (infoOf t.store k).active = false ∧ (infoOf t.store k).banished = false ∧
      (infoOf t.store k).compressionAt = some (S.now + 60 * S.day) ∧ (infoOf t.store k).referrer = (infoOf S.store k).referrer ∧
      (∀ p, (infoOf S.store k).referrer = some p → k ∈ (infoOf t.store p).referrals) ∧ (∀ a, k ∉ (infoOf t.store a).activeReferrals) ∧
      ∀ j, j ≠ k → (infoOf t.store j).active = (infoOf S.store j).active ∧ (infoOf t.store j).referrer = (infoOf S.store j).referrer := by
  intro S hk h2 h3 h4
  obtain ⟨hg, hl, hlow⟩ := any_inv l s h0 hw h
  refine lapse he hl ⟨hg, hlow.store, fun a c hc => ?_, h3, fun a n hn => ?_⟩ h4 hk
  · have hr : (infoOf S.store c).referrer = some a := ((hl.mem a c).1 hc).1
    cases hh : S.store.has c with
    | true => rfl
    | false => rw [infoOf_of_not_has hh] at hr; cases hr
  · have := h2 a n hn
    rw [Int.add_zero]
    rw [upTo_sum]
    exact this

/-- **C108** where the sums are right (`acceptOk`, as in C58): it is enough that own delegations are not negative and add up to less than 2⁶³. -/
theorem C108_in_order_partial (l : List (Env × Op)) (s : State) (h0 : s.start) (hw : s.work = KV.empty) (h : Along acceptOk l s) (e : Env)
    (he : ∀ c k, e.call c k = true) (k : Key) :
    let S := run l s
    (infoOf S.store k).active = true → (∀ c, 0 ≤ (infoOf S.store c).tot .delegated 0) →
    (S.store.keys.map fun c => (infoOf S.store c).tot .delegated 0).sum < 9223372036854775808 →
    Schedule.inRange (S.now + 2 * S.day) = true → Schedule.inRange (S.now + 60 * S.day) = true →
    ∃ t, setActive e k false true S = (.ok (), t) ∧ (infoOf t.store k).active = false ∧ (infoOf t.store k).banished = false ∧
      (infoOf t.store k).compressionAt = some (S.now + 60 * S.day) ∧ (infoOf t.store k).referrer = (infoOf S.store k).referrer ∧
      (∀ p, (infoOf S.store k).referrer = some p → k ∈ (infoOf t.store p).referrals) ∧ (∀ a, k ∉ (infoOf t.store a).activeReferrals) ∧
      ∀ j, j ≠ k → (infoOf t.store j).active = (infoOf S.store j).active ∧ (infoOf t.store j).referrer = (infoOf S.store j).referrer := by
  intro S hk h1 h2 h3 h4
  obtain ⟨ht, hl, hlow⟩ := accept_inv l s h0 hw h
  exact lapse he hl (roomy_of_inv ht hl hlow h1 h2 h3 (by decide)) h4 hk

/-- Three accounts below each other; the second loses its subscription. -/
example : plain.start ∧ plain.work = KV.empty ∧ Along acceptOk (sample.take 3) plain ∧ (infoOf (run (sample.take 3) plain).store (text 1)).active = true ∧
    ((run (sample.take 3) plain).store.keys.map fun c => (infoOf (run (sample.take 3) plain).store c).tot .delegated 0) = [0, 0, 0] ∧
    Schedule.inRange ((run (sample.take 3) plain).now + 60 * (run (sample.take 3) plain).day) = true ∧
    (infoOf (run (sample.take 3) plain).store (text 0)).activeReferrals = [text 1] ∧
    (infoOf (step fine (.expire (text 1)) (run (sample.take 3) plain)).store (text 0)).activeReferrals = [] ∧
    (infoOf (step fine (.expire (text 1)) (run (sample.take 3) plain)).store (text 0)).referrals = [text 1] ∧
    (infoOf (step fine (.expire (text 1)) (run (sample.take 3) plain)).store (text 1)).activeReferrals = [text 2] := by
  refine ⟨rfl, rfl, ⟨⟨trivial, trivial⟩, ⟨(show text 1 ≠ text 0 by decide), trivial⟩, ⟨(show text 2 ≠ text 1 by decide), trivial⟩, trivial⟩, ?_, ?_, ?_, ?_, ?_, ?_, ?_⟩ <;>
    decide +kernel

end Verif.Referral
