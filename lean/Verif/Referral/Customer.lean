import Verif.Referral.RestoreBack
import Verif.Referral.RestartStarts

/-! Property C107: nobody who pays for a subscription is turned away by the referral module. -/
namespace Verif.Referral
open Relation

/-! ### Specification -/

/-- From `k` upwards, `r` is the first account that is open for registration: it has no referrer, or it is present and has been out of business for
less than a month; nobody if there is none. -/
inductive Welcomed (st : KV Nat Info) (now month : Int) : Option Key → Option Key → Prop
  | nobody : Welcomed st now month none none
  | here {k : Key} (h : (infoOf st k).referrer = none ∨ (infoOf st k).banished = false ∧
      ((infoOf st k).active = true ∨ ∃ c, (infoOf st k).compressionAt = some c ∧ now ≤ c - month)) : Welcomed st now month (some k) (some k)
  | above {k : Key} {r : Option Key} (h : (infoOf st k).referrer ≠ none ∧ ((infoOf st k).banished = true ∨ (infoOf st k).active = false ∧
      ∀ c, (infoOf st k).compressionAt = some c → c - month < now)) (hr : Welcomed st now month (infoOf st k).referrer r) : Welcomed st now month (some k) r

theorem openAncestor_first {st : KV Nat Info} {now month : Int} : ∀ (n : Nat) (p r : Option Key), openAncestor st now month n p = some r →
    Welcomed st now month p r
  | _, none, r, h => by
    cases r with
    | none => exact .nobody
    | some r => unfold openAncestor at h; cases h
  | 0, some k, r, h => by unfold openAncestor at h; cases h
  | n + 1, some k, r, h => by
    unfold openAncestor at h
    split at h
    · rename_i hc
      unfold Info.closed overdue at hc
      refine .above ?_ (openAncestor_first n _ r h)
      simp only [Bool.and_eq_true, Bool.or_eq_true] at hc
      refine ⟨by rw [← Option.isSome_iff_ne_none]; exact hc.1, hc.2.imp id fun h2 => ⟨by simpa using h2.1, fun c hcc => ?_⟩⟩
      have := h2.2
      rw [hcc] at this
      simpa using this
    · rename_i hc
      cases h
      refine .here ?_
      unfold Info.closed overdue at hc
      cases hr : (infoOf st k).referrer with
      | none => exact .inl rfl
      | some q =>
        right
        rw [hr] at hc
        simp only [Option.isSome_some, Bool.true_and, Bool.or_eq_true, Bool.and_eq_true, not_or, not_and] at hc
        refine ⟨by simpa using hc.1, ?_⟩
        cases ha : (infoOf st k).active with
        | true => exact .inl rfl
        | false =>
          right
          have := hc.2 (by rw [ha]; rfl)
          cases hcc : (infoOf st k).compressionAt with
          | none => rw [hcc] at this; simp at this
          | some c => rw [hcc] at this; exact ⟨c, rfl, by simpa using this⟩

/-! ### Activation with the check of statuses -/

theorem climb_mild {k0 : Key} {f : Nat → Key → Info → Act Info} (hf : ∀ l k v s, ∃ w, f l k v s = (.ok w, s) ∧ w.tot .delegated = v.tot .delegated ∧
      w.status = v.status ∧ ∀ c ∈ w.activeReferrals, c ∈ v.activeReferrals ∨ c = k0) :
    ∀ (n l : Nat) (p : Option Key) (s : State), Ready s → s.work.has k0 = true → (∀ a, Affordable (view s.work a)) → ∃ t, climb true f n l p s = (.ok (), t) := by
  intro n
  induction n with
  | zero => intro l p s _ _ _; exact ⟨s, rfl⟩
  | succ n ih =>
    intro l p s hs hk ha
    cases p with
    | none => exact ⟨s, rfl⟩
    | some k =>
      obtain ⟨w, h1, et, es, el⟩ := hf l k (infoOf s.work k) s
      have hw : Affordable w := (ha k).congr fun x => by
        rw [et]; rfl
      obtain ⟨t, h2, ht⟩ := update_succeeds (k := k) (f := fun v => do let w ← f l k v; pure (w, v.referrer)) (s := s) (s1 := s) (w := w)
        (a := (infoOf s.work k).referrer) (by rw [M.bind_ok h1]; rfl) hw (by rw [es]; exact hs.low.work k)
        (fun c hc => (el c hc).elim (fun h => hs.stored k c h) fun h => h ▸ hk) hs
      obtain ⟨w', s1', h1', fr, hv, -⟩ := update_ok h2
      rw [M.bind_ok h1] at h1'
      cases h1'
      obtain ⟨t', h3⟩ := ih (l + 1) (infoOf s.work k).referrer t ht (fr.grows _ hk) (fun a => by
        rw [hv]
        by_cases hak : a = k
        · subst hak; rw [upd_self]; exact hw.congr fun _ => rfl
        · rw [upd_ne _ _ hak]; exact ha a)
      refine ⟨t', ?_⟩
      unfold climb
      rw [M.bind_ok h2]
      exact h3

theorem activate_succeeds {e : Env} (he : ∀ c k, e.call c k = true) {u : State} {k : Key} (hr : Ready { u with work := u.store, calls := [] })
    (ha : ∀ a, Affordable (view u.store a)) (h6 : ∀ x, (infoOf u.store k).banishmentAt = some x → Schedule.inRange x = true) :
    ∃ t, setActive e k true true u = (.ok (), t) := by
  have key : ∃ b t, activeBody k true true { u with work := u.store, calls := [] } = (.ok b, t) := by
    unfold activeBody
    rw [M.bind_ok (M.get_apply _)]
    split
    · exact ⟨_, _, rfl⟩
    · have hself : ∃ w s1, activateSelf k true (infoOf u.store k) { u with work := u.store, calls := [] } = (.ok (w, (infoOf u.store k).referrer), s1) ∧
          Quiet { u with work := u.store, calls := [] } s1 ∧ w.status = (infoOf u.store k).status ∧ w.tot .delegated = (infoOf u.store k).tot .delegated ∧
          w.activeReferrals = (infoOf u.store k).activeReferrals := by
        have et : ((infoOf u.store k).add (people true) 0).tot .delegated = (infoOf u.store k).tot .delegated := by
          funext j
          show (if j = 0 then (infoOf u.store k).tot .delegated j + 0 else _) = _
          split
          · omega
          · rfl
        unfold activateSelf
        rw [M.bind_ok (M.get_apply _)]
        cases hb : (infoOf u.store k).banishmentAt with
        | none => exact ⟨_, _, rfl, .refl _, rfl, et, rfl⟩
        | some x =>
          obtain ⟨s1, h1⟩ := delete_succeeds (h6 x hb) banishHook [k] { u with work := u.store, calls := [] }
          have q := (Still.request _).of h1
          have aux : ∀ (w : Info) (b : Option Key), ((request (.delete x banishHook [k]) >>= fun _ => (pure w : Act Info)) >>= fun w => (pure (w, b) : Act _))
              { u with work := u.store, calls := [] } = (.ok (w, b), s1) := by
            intro w b
            have : (request (.delete x banishHook [k]) >>= fun _ => (pure w : Act Info)) { u with work := u.store, calls := [] } = (.ok w, s1) := by
              rw [M.bind_ok h1]; rfl
            rw [M.bind_ok this]; rfl
          exact ⟨_, s1, aux _ _, q, rfl, et, rfl⟩
      obtain ⟨w, s1, hw, q, es, et, el⟩ := hself
      have hup := update_unchecked (k := k) hw
      rw [M.bind_ok hup]
      have hview : view (s1.work.set k w) = upd (view u.store) k (core w) := by
        rw [view_set, q.work]
      obtain ⟨t, ht⟩ := climb_mild (k0 := k) (f := fun l _ v =>
          let w := v.add (people true) l
          pure (if l = 1 then
              { w with activeReferrals := if true then addSorted v.activeReferrals k else removeOrdered v.activeReferrals k }
            else w)) (by
          intro l a v s
          have e1 : (v.add (people true) l).tot .delegated = v.tot .delegated := by
            funext j
            show (if j = l then v.tot .delegated j + 0 else _) = _
            split
            · omega
            · rfl
          by_cases hl : l = 1
          · refine ⟨{ v.add (people true) l with activeReferrals := addSorted v.activeReferrals k }, ?_, e1, rfl, fun c hc => ?_⟩
            · dsimp only; rw [if_pos hl]; rfl
            · exact (mem_addSorted hc).symm
          · refine ⟨v.add (people true) l, ?_, e1, rfl, fun c hc => .inl hc⟩
            dsimp only; rw [if_neg hl]; rfl) 10 1 (infoOf u.store k).referrer { s1 with work := s1.work.set k w } (by
          refine ⟨⟨by show LowSt s1.store; rw [q.store]; exact hr.low.store, ?_⟩, fun x c hc => ?_, by show Schedule.inRange (s1.now + 2 * s1.day) = true; rw [q.now, q.day]; exact hr.soon⟩
          · refine LowSt.set ?_ (by rw [es]; exact hr.low.store k)
            rw [q.work]; exact hr.low.store
          · show (s1.work.set k w).has c = true
            have hc : c ∈ (view (s1.work.set k w) x).activeReferrals := hc
            rw [has_set, Bool.or_eq_true]
            right
            rw [q.work]
            rw [hview] at hc
            by_cases hx : x = k
            · subst hx
              rw [upd_self] at hc
              have hc : c ∈ w.activeReferrals := hc
              rw [el] at hc
              exact hr.stored x c hc
            · rw [upd_ne _ _ hx] at hc
              exact hr.stored x c hc) (by show (s1.work.set k w).has k = true; rw [has_set]; simp) (fun a => by
          show Affordable (view (s1.work.set k w) a)
          rw [hview]
          by_cases hx : a = k
          · subst hx
            rw [upd_self]
            exact (ha a).congr fun x => by
              show w.tot .delegated x = _
              rw [et]; rfl
          · rw [upd_ne _ _ hx]; exact ha a)
      rw [M.bind_ok ht, if_neg (by simp)]
      exact ⟨_, _, rfl⟩
  obtain ⟨b, w, hw⟩ := key
  have e0 : setActive e k true true u = (activeBody k true true >>= fun b => if b then commit e else pure ()) { u with work := u.store, calls := [] } := rfl
  rw [e0, M.bind_ok hw]
  exact commit_fine_res he b w

/-! ### Subscriptions -/

theorem roomy_of_inv {S : State} (ht : Tally 10 S) (hl : Listed S) (hlow : Low S) (h1 : ∀ c, 0 ≤ (infoOf S.store c).tot .delegated 0)
    (h2 : (S.store.keys.map fun c => (infoOf S.store c).tot .delegated 0).sum < 9223372036854775808)
    (h3 : Schedule.inRange (S.now + 2 * S.day) = true) {B : Int} (hB : B < 9223372036854775808) : Roomy B S := by
  have hz : ∀ c, c ∉ S.store.keys → (view S.store c).tot .delegated 0 = 0 := by
    intro c hc
    rw [mem_keys_of_has] at hc
    show (infoOf S.store c).tot .delegated 0 = 0
    rw [infoOf_of_not_has (by simpa using hc)]
  refine ⟨ht.good, hlow.store, fun a c hc => ?_, h3, fun c n hn => ?_⟩
  · have hr : (infoOf S.store c).referrer = some a := ((hl.mem a c).1 hc).1
    cases hh : S.store.has c with
    | true => rfl
    | false => rw [infoOf_of_not_has hh] at hr; cases hr
  · rw [upTo_reach ht hn]
    have e1 : 0 ≤ ((reach (view S.store) n c).map fun c => (view S.store c).tot .delegated 0).sum := List.sum_nonneg fun x hx => by
      obtain ⟨y, -, rfl⟩ := List.mem_map.1 hx
      exact h1 y
    have e2 : ((reach (view S.store) n c).map fun c => (view S.store c).tot .delegated 0).sum ≤
        (S.store.keys.map fun c => (infoOf S.store c).tot .delegated 0).sum :=
      sum_le_of_support _ _ _ (reach_once ht.forest n c) h1 hz
    exact ⟨e1, by omega⟩

theorem own_le_sum {S : State} (h1 : ∀ c, 0 ≤ (infoOf S.store c).tot .delegated 0) (k : Key) (hk : S.store.has k = true) :
    (infoOf S.store k).tot .delegated 0 ≤ (S.store.keys.map fun c => (infoOf S.store c).tot .delegated 0).sum := by
  have := sum_subset (L := [k]) (K := S.store.keys) (f := fun c => (infoOf S.store c).tot .delegated 0) (by simp) h1 (fun c hc => by
    rw [List.mem_singleton] at hc
    rw [hc, mem_keys_of_has]; exact hk)
  simpa using this

theorem subscribe_welcome {S : State} {e : Env} (he : ∀ c k, e.call c k = true) {k : Key} (hl : Listed S)
    (hR : Roomy (0 + (infoOf S.store k).tot .delegated 0) S) (hp : 0 ≤ (infoOf S.store k).tot .delegated 0)
    (h4 : ∀ x, (infoOf S.store k).banishmentAt = some x → Schedule.inRange x = true) :
    ∃ t, subscribe e k S = (.ok (), t) ∧ (infoOf t.store k).active = true ∧ (infoOf t.store k).banished = false ∧
      ((infoOf S.store k).banished = false → (infoOf t.store k).referrer = (infoOf S.store k).referrer) ∧
      ((infoOf S.store k).banished = true → Welcomed S.store S.now S.month (infoOf S.store k).referrer (infoOf t.store k).referrer) ∧
      ∀ p, (infoOf t.store k).referrer = some p → k ∈ (infoOf t.store p).referrals ∧ k ∈ (infoOf t.store p).activeReferrals := by
  -- the return
  have back : ∃ u, returnIfBanished e k S = (.ok (), u) ∧ Roomy 0 u ∧ (infoOf u.store k).banished = false ∧
      (infoOf u.store k).active = (infoOf S.store k).active ∧
      (∀ x, (infoOf u.store k).banishmentAt = some x → Schedule.inRange x = true) ∧ True ∧
      ((infoOf S.store k).banished = false → (infoOf u.store k).referrer = (infoOf S.store k).referrer) ∧
      ((infoOf S.store k).banished = true → Welcomed S.store S.now S.month (infoOf S.store k).referrer (infoOf u.store k).referrer) := by
    unfold returnIfBanished
    rw [M.bind_ok (M.get_apply S)]
    cases hb : (infoOf S.store k).banished with
    | false =>
      exact ⟨S, rfl, ⟨hR.good, hR.low, hR.stored, hR.soon, fun a n hn => ⟨(hR.fits a n hn).1, by have := (hR.fits a n hn).2; omega⟩⟩, hb, rfl, h4, trivial, fun _ => rfl, fun h => absurd h (by decide)⟩
    | true =>
      obtain ⟨-, c2, c3, -⟩ := comeBack_roomy (e := e) hb hR le_rfl hp
      obtain ⟨w, hw'⟩ := comeBackBody_succeeds (k := k) (B := 0) (s := S.fresh) ⟨hR.good, hR.low, hR.stored, hR.soon, hR.fits⟩ le_rfl hp rfl
      obtain ⟨-, parent, n, ho, hv⟩ := comeBackBody_ok hw'
      have hok : comeBack e k S = (.ok (), { w with store := w.work }) := by
        have e0 : comeBack e k S = (comeBackBody k >>= fun b => if b then commit e else pure ()) S.fresh := rfl
        rw [e0, M.bind_ok hw', if_pos rfl, commit_fine he]
      rw [hok] at c2 c3
      have hv0 : view S.fresh.work = view S.store := rfl
      rw [hv0] at hv
      have htr : ∀ q, parent = some q → TransGen (treeOf (view S.store)).over q k := by
        intro q hq
        rw [hq] at ho
        exact (openAncestor_trans ho).1
      rw [climbV_comm (g := bump _ (addKid k)) (bump_all (π := Info.referrer) (fun _ _ => rfl) (fun _ => rfl)) 10 1 parent (view S.store)
        fun q hq => no_loop hR.good (htr q hq)] at hv
      have hvk : view w.work k = { view S.store k with referrer := parent, banished := false, banishmentAt := none, compressionAt := none } := by
        rw [hv, upd_self]
      refine ⟨_, by rw [if_pos rfl]; exact hok, c2, c3, ?_, ?_, trivial, (fun h => absurd h (by decide)), fun _ => ?_⟩
      · exact (congrArg Info.active hvk :)
      · intro x hx
        have := congrArg Info.banishmentAt hvk
        have hx : (view w.work k).banishmentAt = some x := hx
        rw [this] at hx; cases hx
      · have hpar : (infoOf w.work k).referrer = parent := (congrArg Info.referrer hvk :)
        show Welcomed _ _ _ _ (infoOf w.work k).referrer
        rw [hpar]
        exact openAncestor_first n _ _ ho
  obtain ⟨u, g1, g2, g3, g4, g5, gT, g6, g7⟩ := back
  obtain ⟨t, ht2⟩ := activate_succeeds (e := e) he (u := u) (k := k) ⟨⟨g2.low, g2.low⟩, g2.stored, g2.soon⟩ (fun a => g2.fits.affordable le_rfl a) g5
  have hsub : subscribe e k S = (.ok (), t) := by
    unfold subscribe
    rw [M.bind_ok g1]; exact ht2
  -- the invariants afterwards
  have hstep : step e (.subscribe k) S = t := by
    show M.tx (subscribe e k) S = t
    unfold M.tx
    rw [hsub]
  have it : Good t := hstep ▸ step_good e (.subscribe k) S hR.good trivial
  have il : Listed t := hstep ▸ step_listed e (.subscribe k) S hR.good hl trivial
  -- the record
  have hrec : (infoOf t.store k).active = true ∧ (infoOf t.store k).banished = false ∧ (infoOf t.store k).referrer = (infoOf u.store k).referrer := by
    have e0 : setActive e k true true u = (activeBody k true true >>= fun b => if b then commit e else pure ()) u.fresh := rfl
    rw [e0, M.bind_ok_iff] at ht2
    obtain ⟨b, w, hb, hc⟩ := ht2
    rcases activeBody_ok hb with ⟨rfl, rfl, ha⟩ | ⟨rfl, -, -, x, hv⟩
    · have : t = u.fresh := by
        have hc : ((.ok (), u.fresh) : Res Unit × State) = (.ok (), t) := hc
        cases hc; rfl
      rw [this]
      exact ⟨ha, g3, rfl⟩
    · rw [if_pos rfl, commit_fine he] at hc
      have hts : t.store = w.work := by cases hc; rfl
      have hvk : view t.store k = activated (view u.store k) true none x := by
        rw [hts, hv]
        have hv0 : view u.fresh.work = view u.store := rfl
        rw [hv0]
        rw [climbV_untouched (g := bump (people true) (relist true k)) (bump_all (π := Info.referrer) (fun _ _ => rfl) (fun _ => rfl)), upd_self]
        · rfl
        · intro q hq hr
          have ho : (treeOf (upd (view u.store) k (activated (view u.store k) true (if true then none else some (u.fresh.now + u.fresh.compressionPeriod)) x))).over =
              (treeOf (view u.store)).over := by
            funext a b
            show ((upd (view u.store) k _ b).referrer = some a) = ((view u.store b).referrer = some a)
            by_cases hbk : b = k
            · subst hbk; rw [upd_self]; rfl
            · rw [upd_ne _ _ hbk]
          rw [ho] at hr
          exact no_loop g2.good (.single hq) hr
      have r1 : (infoOf t.store k).active = true := (congrArg Info.active hvk :)
      have r2 : (infoOf t.store k).banished = (infoOf u.store k).banished := (congrArg Info.banished hvk :)
      have r3 : (infoOf t.store k).referrer = (infoOf u.store k).referrer := (congrArg Info.referrer hvk :)
      exact ⟨r1, r2.trans g3, r3⟩
  obtain ⟨r1, r2, r3⟩ := hrec
  refine ⟨t, hsub, r1, r2, fun h => r3.trans (g6 h), fun h => r3 ▸ g7 h, fun p hp => ?_⟩
  exact ⟨(it.mem p k).2 ⟨hp, r2⟩, (il.mem p k).2 ⟨hp, r1⟩⟩

theorem any_inv (l : List (Env × Op)) (s : State) (h0 : s.start) (hw : s.work = KV.empty) (h : Along (fun op s => activesOk op s ∧ lowOk op s) l s) :
    Good (run l s) ∧ Listed (run l s) ∧ Low (run l s) := by
  refine Along.run (P := fun s => Good s ∧ Listed s ∧ Low s) (fun e op s hs h => ?_) l s ⟨start_good h0, start_listed h0, ?_⟩ h
  · exact ⟨step_good e op s hs.1 h.1.structure, step_listed e op s hs.1 hs.2.1 h.1, step_low e op s hs.2.2 h.2⟩
  · have low : LowSt KV.empty := fun a => by rw [infoOf_of_not_has rfl]; decide
    unfold State.start at h0
    exact ⟨by rw [h0]; exact low, by rw [hw]; exact low⟩

/-- **C107** for executions that meet `acceptOk` (as C58), when the callbacks of other modules succeed, own delegations are not negative and add up to less
than 2⁶³, and the times involved are before 2263: the referral module accepts every subscription of every registered account. -/
theorem C107_customer_partial (l : List (Env × Op)) (s : State) (h0 : s.start) (hw : s.work = KV.empty) (h : Along acceptOk l s) (e : Env)
    (he : ∀ c k, e.call c k = true) (k : Key) :
    let S := run l s
    S.store.has k = true → (∀ c, 0 ≤ (infoOf S.store c).tot .delegated 0) →
    (S.store.keys.map fun c => (infoOf S.store c).tot .delegated 0).sum < 9223372036854775808 →
    Schedule.inRange (S.now + 2 * S.day) = true →
    (∀ x, (infoOf S.store k).banishmentAt = some x → Schedule.inRange x = true) →
    ∃ t, subscribe e k S = (.ok (), t) ∧ (infoOf t.store k).active = true ∧ (infoOf t.store k).banished = false ∧
      (infoOf t.store k).compressionAt = none ∧
      ((infoOf S.store k).banished = false → (infoOf t.store k).referrer = (infoOf S.store k).referrer) ∧
      ((infoOf S.store k).banished = true → Welcomed S.store S.now S.month (infoOf S.store k).referrer (infoOf t.store k).referrer) ∧
      ∀ p, (infoOf t.store k).referrer = some p → k ∈ (infoOf t.store p).referrals ∧ k ∈ (infoOf t.store p).activeReferrals := by
  intro S hk h1 h2 h3 h4
  obtain ⟨ht, hl, hlow⟩ := accept_inv l s h0 hw h
  obtain ⟨t, hsub, r⟩ := subscribe_welcome (S := S) (k := k) he hl
    (roomy_of_inv ht hl hlow h1 h2 h3 (by have := own_le_sum h1 k hk; omega)) (h1 k) h4
  have hstep : step e (.subscribe k) S = t := by
    show M.tx (subscribe e k) S = t
    unfold M.tx
    rw [hsub]
  have inv' := accept_inv (l ++ [(e, .subscribe k)]) s h0 hw (along_append (l' := [(e, Op.subscribe k)]) h ⟨⟨trivial, trivial⟩, trivial⟩)
  rw [run_append] at inv'
  have erun : run [(e, Op.subscribe k)] (run l s) = t := hstep
  rw [erun] at inv'
  exact ⟨t, hsub, r.1, r.2.1, inv'.1.tidy.idle k r.1, r.2.2⟩

/-- **C107** for all executions in which nobody registers as their own referrer and the genesis file is in order, also those in which accounts are
compressed in the midst of long lines and accounts with referrals are banished, so that sums are wrong: a subscription is accepted
as long as the stored sums of delegations are not negative and leave room for the delegation of the subscriber. -/
theorem C107_any_sums_partial (l : List (Env × Op)) (s : State) (h0 : s.start) (hw : s.work = KV.empty) (h : Along (fun op s => activesOk op s ∧ lowOk op s) l s)
    (e : Env) (he : ∀ c k, e.call c k = true) (k : Key) :
    let S := run l s
    0 ≤ (infoOf S.store k).tot .delegated 0 →
    (∀ a n, n ≤ 10 → 0 ≤ ((List.range (n + 1)).map fun i => (infoOf S.store a).tot .delegated i).sum ∧
      ((List.range (n + 1)).map fun i => (infoOf S.store a).tot .delegated i).sum + (infoOf S.store k).tot .delegated 0 < 18446744073709551616) →
    Schedule.inRange (S.now + 2 * S.day) = true →
    (∀ x, (infoOf S.store k).banishmentAt = some x → Schedule.inRange x = true) →
    ∃ t, subscribe e k S = (.ok (), t) ∧ (infoOf t.store k).active = true ∧ (infoOf t.store k).banished = false ∧
      ((infoOf S.store k).banished = false → (infoOf t.store k).referrer = (infoOf S.store k).referrer) ∧
      ((infoOf S.store k).banished = true → Welcomed S.store S.now S.month (infoOf S.store k).referrer (infoOf t.store k).referrer) ∧
      ∀ p, (infoOf t.store k).referrer = some p → k ∈ (infoOf t.store p).referrals ∧ k ∈ (infoOf t.store p).activeReferrals := by
  intro S h1 h2 h3 h4
  obtain ⟨hg, hl, hlow⟩ := any_inv l s h0 hw h
  refine subscribe_welcome he hl ⟨hg, hlow.store, fun a c hc => ?_, h3, fun a n hn => ?_⟩ h1 h4
  · have hr : (infoOf S.store c).referrer = some a := ((hl.mem a c).1 hc).1
    cases hh : S.store.has c with
    | true => rfl
    | false => rw [infoOf_of_not_has hh] at hr; cases hr
  · have := h2 a n hn
    rw [Int.zero_add]
    have e1 : ∀ m, (view S.store a).delegatedUpTo m = ((List.range (m + 1)).map fun i => (infoOf S.store a).tot .delegated i).sum := by
      intro m
      induction m with
      | zero => show (infoOf S.store a).tot .delegated 0 = _; simp
      | succ m ih =>
        rw [List.range_succ, List.map_append, List.sum_append, ← ih]
        show _ + (infoOf S.store a).tot .delegated (m + 1) = _
        simp
    rw [e1]
    exact this

/-- **C107** for genesis files in which all records are in order, and executions in which tasks run on time: accounts are compressed and banished and
come back, and yet every subscription is accepted. -/
theorem C107_orderly_partial (l0 l : List (Env × Op)) (s : State) (h0 : s.start) (hw : s.work = KV.empty) (h1 : Along acceptOk l0 s)
    (hf : ∀ k, Settled (infoOf (run l0 s).store k)) (h : Along calmOk l (run l0 s)) (e : Env) (he : ∀ c k, e.call c k = true) (k : Key) :
    let S := run l (run l0 s)
    S.store.has k = true → (∀ c, 0 ≤ (infoOf S.store c).tot .delegated 0) →
    (S.store.keys.map fun c => (infoOf S.store c).tot .delegated 0).sum < 9223372036854775808 →
    Schedule.inRange (S.now + 2 * S.day) = true →
    (∀ x, (infoOf S.store k).banishmentAt = some x → Schedule.inRange x = true) →
    ∃ t, subscribe e k S = (.ok (), t) ∧ (infoOf t.store k).active = true ∧ (infoOf t.store k).banished = false ∧
      (infoOf t.store k).compressionAt = none ∧
      ((infoOf S.store k).banished = false → (infoOf t.store k).referrer = (infoOf S.store k).referrer) ∧
      ((infoOf S.store k).banished = true → Welcomed S.store S.now S.month (infoOf S.store k).referrer (infoOf t.store k).referrer) ∧
      ∀ p, (infoOf t.store k).referrer = some p → k ∈ (infoOf t.store p).referrals ∧ k ∈ (infoOf t.store p).activeReferrals := by
  intro S
  have := C107_customer_partial (l0 ++ l) s h0 hw (orderly_accept h0 h1 hf h) e he k
  rw [run_append] at this
  exact this

/-! ### Cases -/

/-- Account 2 is compressed and banished while its referrer, account 1, has been out of business for more than a month. -/
def outcast : List (Env × Op) :=
  [(fine, .top (text 0)), (fine, .register (text 1) (text 0) true), (fine, .register (text 2) (text 1) false), (fine, .balance 2 ⟨40, 0, 0⟩),
   (fine, .world 550 0 0 99), (fine, .expire (text 1)), (fine, .world 900 0 0 99), (fine, .compression (text 2)), (fine, .world 1300 0 0 99), (fine, .banish (text 2))]

theorem outcast_ok : Along acceptOk outcast plain :=
  ⟨⟨trivial, trivial⟩, ⟨(show text 1 ≠ text 0 by decide), trivial⟩, ⟨(show text 2 ≠ text 1 by decide), trivial⟩, ⟨trivial, trivial⟩, ⟨trivial, trivial⟩,
    ⟨trivial, trivial⟩, ⟨trivial, trivial⟩, ⟨.inr (shallow_of_depth (by decide +kernel) _), trivial⟩, ⟨trivial, trivial⟩,
    ⟨(show (infoOf _ _).referrals = [] by decide +kernel), trivial⟩, trivial⟩

/-- It comes back below account 0. -/
example : plain.start ∧ plain.work = KV.empty ∧ (run outcast plain).store.has (text 2) = true ∧
    (infoOf (run outcast plain).store (text 2)).banished = true ∧ (infoOf (run outcast plain).store (text 2)).referrer = some (text 1) ∧
    (infoOf (run outcast plain).store (text 1)).referrals = [] ∧
    (infoOf (run outcast plain).store (text 2)).banishmentAt = none ∧ Schedule.inRange ((run outcast plain).now + 2 * (run outcast plain).day) = true ∧
    ((run outcast plain).store.keys.map fun c => (infoOf (run outcast plain).store c).tot .delegated 0) = [0, 0, 0] ∧
    (infoOf (step fine (.subscribe (text 2)) (run outcast plain)).store (text 2)).referrer = some (text 0) ∧
    (infoOf (step fine (.subscribe (text 2)) (run outcast plain)).store (text 0)).activeReferrals = [text 2] ∧
    (infoOf (step fine (.subscribe (text 2)) (run outcast plain)).store (text 0)).tot .coins 1 = 41 := by
  refine ⟨rfl, rfl, ?_, ?_, ?_, ?_, ?_, ?_, ?_, ?_, ?_, ?_⟩ <;> decide +kernel

/-- A line of twelve accounts whose second is compressed (C58): the first does not count what the last delegated, and yet subscriptions are accepted. -/
example : awaiting.start ∧ awaiting.work = KV.empty ∧ Along (fun op s => activesOk op s ∧ lowOk op s) shortened awaiting ∧
    (infoOf (run shortened awaiting).store (text 11)).tot .delegated 0 = 7 ∧ (infoOf (run shortened awaiting).store (text 0)).tot .delegated 10 = 0 ∧
    (∀ a n, n ≤ 10 → 0 ≤ ((List.range (n + 1)).map fun i => (infoOf (run shortened awaiting).store a).tot .delegated i).sum ∧
      ((List.range (n + 1)).map fun i => (infoOf (run shortened awaiting).store a).tot .delegated i).sum + 7 < 18446744073709551616) ∧
    (subscribe fine (text 11) (run shortened awaiting)).1 = .ok () := by
  refine ⟨rfl, rfl, ?_, by decide +kernel, by decide +kernel, fun a n hn => ?_, by decide +kernel⟩
  · exact ⟨⟨trivial, trivial⟩, ⟨(show text 1 ≠ text 0 by decide), trivial⟩, ⟨(show text 2 ≠ text 1 by decide), trivial⟩,
      ⟨(show text 3 ≠ text 2 by decide), trivial⟩, ⟨(show text 4 ≠ text 3 by decide), trivial⟩, ⟨(show text 5 ≠ text 4 by decide), trivial⟩,
      ⟨(show text 6 ≠ text 5 by decide), trivial⟩, ⟨(show text 7 ≠ text 6 by decide), trivial⟩, ⟨(show text 8 ≠ text 7 by decide), trivial⟩,
      ⟨(show text 9 ≠ text 8 by decide), trivial⟩, ⟨(show text 10 ≠ text 9 by decide), trivial⟩, ⟨(show text 11 ≠ text 10 by decide), trivial⟩,
      ⟨trivial, trivial⟩, ⟨trivial, (show 5 ≤ 9 by decide)⟩, ⟨trivial, (show 1 ≤ 9 by decide)⟩, ⟨trivial, trivial⟩, ⟨trivial, trivial⟩, trivial⟩
  · have key : ∀ a ∈ (run shortened awaiting).store.keys, ∀ n ∈ List.range 11,
        0 ≤ ((List.range (n + 1)).map fun i => (infoOf (run shortened awaiting).store a).tot .delegated i).sum ∧
        ((List.range (n + 1)).map fun i => (infoOf (run shortened awaiting).store a).tot .delegated i).sum + 7 < 18446744073709551616 := by
      decide +kernel
    by_cases ha : a ∈ (run shortened awaiting).store.keys
    · exact key a ha n (by rw [List.mem_range]; omega)
    · rw [mem_keys_of_has] at ha
      rw [infoOf_of_not_has (by simpa using ha)]
      have : ((List.range (n + 1)).map fun i => (({} : Info).tot .delegated i)).sum = 0 := by
        apply List.sum_eq_zero
        intro x hx
        obtain ⟨i, -, rfl⟩ := List.mem_map.1 hx
        rfl
      rw [this]
      decide

end Verif.Referral
