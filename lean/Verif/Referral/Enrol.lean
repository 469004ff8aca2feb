import Verif.Referral.Lapse

/-! Property C109: who may register below whom. -/
namespace Verif.Referral
open Relation

/-! ### Specification -/

/-- Open for registration: without referrer, or not banished and in business or out of business for at most a month (the compression is set 60 days
ahead). -/
def Receptive (v : Info) (now month : Int) : Prop :=
  v.referrer = none ∨ v.banished = false ∧ (v.active = true ∨ ∃ c, v.compressionAt = some c ∧ now ≤ c - month)

/-! ### Proofs -/

theorem receptive_iff (v : Info) (now month : Int) : v.closed now month = false ↔ Receptive v now month := by
  unfold Info.closed overdue Receptive
  cases v.referrer with
  | none => simp
  | some p =>
    cases v.banished <;> cases v.active <;> cases v.compressionAt <;> simp

theorem setActive_record {e : Env} (he : ∀ c k, e.call c k = true) {k : Key} {u t : State} (h : setActive e k true true u = (.ok (), t)) :
    (infoOf t.store k).active = true ∧ (infoOf t.store k).banished = (infoOf u.store k).banished ∧ (infoOf t.store k).referrer = (infoOf u.store k).referrer := by
  have e0 : setActive e k true true u = (activeBody k true true >>= fun b => if b then commit e else pure ()) u.fresh := rfl
  rw [e0, M.bind_ok_iff] at h
  obtain ⟨b, w, hb, hc⟩ := h
  rcases activeBody_ok hb with ⟨rfl, rfl, ha⟩ | ⟨rfl, -, -, x, hv⟩
  · have : t = u.fresh := by
      have hc : ((.ok (), u.fresh) : Res Unit × State) = (.ok (), t) := hc
      cases hc; rfl
    rw [this]
    exact ⟨ha, rfl, rfl⟩
  · rw [if_pos rfl, commit_fine he] at hc
    have hts : t.store = w.work := by cases hc; rfl
    have hk' : (fun v : Info => (v.active, v.banished, v.referrer)) (view t.store k) = (fun v : Info => (v.active, v.banished, v.referrer))
        (upd (view u.fresh.work) k (activated (view u.fresh.work k) true none x) k) := by
      rw [hts, hv]
      exact climbV_all (π := fun v : Info => (v.active, v.banished, v.referrer)) (g := bump (people true) (relist true k))
        (bump_all (π := fun v : Info => (v.active, v.banished, v.referrer)) (L := relist true k) (fun _ _ => rfl) (fun _ => rfl)) 10 1 _ _ k
    rw [upd_self] at hk'
    exact ⟨(congrArg Prod.fst hk' :), (congrArg (fun p => p.2.1) hk' :), (congrArg (fun p => p.2.2) hk' :)⟩

theorem no_kids {I : View} {P : Key → Prop} (hg : Forest (treeOf I) P) {c p : Key} {v : Info} (hc : ¬ P c) (hne : c ≠ p) (hv : v.referrer = some p) (b : Key) :
    ¬ (treeOf (upd I c v)).over c b := by
  intro hb
  have hb : (upd I c v b).referrer = some c := hb
  by_cases h : b = c
  · subst h; rw [upd_self, hv] at hb; cases hb; exact hne rfl
  · rw [upd_ne _ _ h] at hb; exact hc (hg.here b c hb)

theorem grown_irr {I : View} {P : Key → Prop} (hg : Forest (treeOf I) P) {c p : Key} {v : Info} (hc : ¬ P c) (hne : c ≠ p) (hv : v.referrer = some p) :
    ∀ x, ¬ TransGen (treeOf (upd I c v)).over x x := by
  have noc := no_kids hg hc hne hv
  have low : ∀ x y, TransGen (treeOf (upd I c v)).over x y → y ≠ c → TransGen (treeOf I).over x y := by
    intro x y h
    induction h with
    | single h =>
      intro hy
      have h : (upd I c v _).referrer = some x := h
      rw [upd_ne _ _ hy] at h
      exact .single h
    | tail _ h ih =>
      rename_i b z _
      intro hz
      have hb : b ≠ c := fun hb => noc _ (hb ▸ h)
      have h : (upd I c v z).referrer = some b := h
      rw [upd_ne _ _ hz] at h
      exact (ih hb).tail h
  intro x hx
  by_cases h : x = c
  · subst h
    cases TransGen.head'_iff.1 hx with
    | intro b hb => exact noc b hb.1
  · exact no_loop hg (low x x hx h) .refl

/-- The sums after a registration -/
theorem enrolled_fits {p c : Key} {S : State} (hR : Roomy (S.delegated c) S) (hd : 0 ≤ S.delegated c) (hc : S.store.has c = false) (hne : c ≠ p)
    (item : Info) (hitem : item = { newInfo (some p) (S.balance c) (S.delegated c) with compressionAt := some (S.now + S.compressionPeriod) }) :
    ∀ a, Affordable (climbV (bump (money (S.balance c) (S.delegated c)) (addKid c)) 10 1 (some p) (upd (view S.store) c (core item)) a) := by
  have irr := grown_irr (v := core item) hR.good (by simp [hc]) hne (by rw [hitem]; rfl)
  have hbump : ∀ l v, (bump (money (S.balance c) (S.delegated c)) (addKid c) l v).referrer = v.referrer :=
    bump_all (π := Info.referrer) (fun _ _ => rfl) (fun _ => rfl)
  have own : ∀ n, (core item).delegatedUpTo n = S.delegated c := by
    intro n
    rw [hitem]
    induction n with
    | zero => rfl
    | succ n ih =>
      show _ + 0 = _
      rw [Int.add_zero]; exact ih
  have room : S.delegated c < 18446744073709551616 := by
    have := hR.fits c 0 (by omega)
    omega
  intro a n hn
  by_cases ha : a = c
  · subst ha
    rw [climbV_untouched hbump, upd_self, own]
    · exact ⟨hd, room⟩
    · intro q hq
      cases hq
      intro hr
      rcases ReflTransGen.cases_head hr with h | ⟨b, hb, -⟩
      · exact hne h
      · exact no_kids (v := core item) hR.good (by simp [hc]) hne (by rw [hitem]; rfl) b hb
  · have h1 := upTo_climb (S.balance c) (S.delegated c) (L := addKid c) (fun _ => rfl) (fun _ => rfl) hd 10 1 (some p) _ le_rfl irr a n
    rw [upd_ne _ _ ha] at h1
    have h3 := hR.fits a n hn
    omega

theorem appendBody_succeeds {p c : Key} {S : State} (hR : Roomy (S.delegated c) S) (hd : 0 ≤ S.delegated c) (hc : S.store.has c = false) (hne : c ≠ p)
    (ho : (infoOf S.store p).closed S.now S.month = false) : ∃ t, appendBody p c false true S.fresh = (.ok true, t) := by
  obtain ⟨item, hitem⟩ : ∃ item : Info, item = { newInfo (some p) (S.balance c) (S.delegated c) with compressionAt := some (S.now + S.compressionPeriod) } := ⟨_, rfl⟩
  have hend := enrolled_fits hR hd hc hne
  have hview : view (S.store.set c item) = upd (view S.store) c (core item) := view_set ..
  have hstat : item.status ≤ 9 := by rw [hitem]; exact (by decide : (1 : Nat) ≤ 9)
  have hact : item.activeReferrals = [] := by rw [hitem]; rfl
  have hpi : infoOf (S.store.set c item) p = infoOf S.store p := by rw [infoOf_set, if_neg (Ne.symm hne)]
  have hready : Ready { S with work := S.store.set c item, calls := [] } := by
    refine ⟨⟨hR.low, hR.low.set hstat⟩, fun x y hy => ?_, hR.soon⟩
    show (S.store.set c item).has y = true
    have hy : y ∈ (view (S.store.set c item) x).activeReferrals := hy
    rw [has_set, Bool.or_eq_true]
    right
    rw [hview] at hy
    by_cases hx : x = c
    · subst hx
      rw [upd_self] at hy
      have hy : y ∈ item.activeReferrals := hy
      rw [hact] at hy; cases hy
    · rw [upd_ne _ _ hx] at hy
      exact hR.stored x y hy
  have irr := grown_irr (v := core item) hR.good (by simp [hc]) hne (by rw [hitem]; rfl)
  have hbump : ∀ l v, (bump (money (S.balance c) (S.delegated c)) (addKid c) l v).referrer = v.referrer :=
    bump_all (π := Info.referrer) (fun _ _ => rfl) (fun _ => rfl)
  have ha : Affords (bump (money (S.balance c) (S.delegated c)) (addKid c)) 10 1 (some p) (view (S.store.set c item)) := by
    rw [hview]
    exact affords_of_result hbump 10 1 (some p) _ irr (hend item hitem)
  have h2 : ∃ t, update p true (fun v => do
      addCall .stakeChanged p
      let w := { v.add (money (S.balance c) (S.delegated c)) 1 with referrals := v.referrals ++ [c] }
      pure (w, (v.referrer, !false && w.closed S.now S.month))) { S with work := S.store.set c item, calls := [] } =
        (.ok ((infoOf S.store p).referrer, false), t) ∧ Ready t := by
    refine update_succeeds (s1 := { S with work := S.store.set c item, calls := [(.stakeChanged, p)] })
      (w := { (infoOf S.store p).add (money (S.balance c) (S.delegated c)) 1 with referrals := (infoOf S.store p).referrals ++ [c] }) ?_ ?_ ?_ ?_ ?_
    · show (Res.ok _, _) = _
      have e1 : infoOf (KV.set S.store c item) p = infoOf S.store p := hpi
      dsimp only
      rw [e1]
      have e2 : ({ (infoOf S.store p).add (money (S.balance c) (S.delegated c)) 1 with referrals := (infoOf S.store p).referrals ++ [c] } : Info).closed S.now S.month = false := ho
      rw [e2]
      rfl
    · refine ha.1.congr fun x => ?_
      have : view (S.store.set c item) p = core (infoOf S.store p) := by
        show core (infoOf (S.store.set c item) p) = _
        rw [hpi]
      rw [this]; rfl
    · exact hR.low p
    · intro x hx
      show (S.store.set c item).has x = true
      rw [has_set, Bool.or_eq_true]
      exact .inr (hR.stored p x hx)
    · exact ⟨⟨hready.low.store, hready.low.work⟩, hready.stored, hready.soon⟩
  obtain ⟨t, h2, ht⟩ := h2
  obtain ⟨w', s1', h1', -, hv, -⟩ := update_ok h2
  have hvt : view t.work = upd (view (S.store.set c item)) p (bump (money (S.balance c) (S.delegated c)) (addKid c) 1 (view (S.store.set c item) p)) := by
    have h1' : ((.ok ({ (infoOf (S.store.set c item) p).add (money (S.balance c) (S.delegated c)) 1 with
          referrals := (infoOf (S.store.set c item) p).referrals ++ [c] }, ((infoOf (S.store.set c item) p).referrer,
          !false && ({ (infoOf (S.store.set c item) p).add (money (S.balance c) (S.delegated c)) 1 with
            referrals := (infoOf (S.store.set c item) p).referrals ++ [c] } : Info).closed S.now S.month)),
        { S with work := S.store.set c item, calls := [(.stakeChanged, p)] }) : Res (Info × (Option Key × Bool)) × State) =
      (.ok (w', ((infoOf S.store p).referrer, false)), s1') := h1'
    obtain ⟨e1, e2⟩ := Prod.mk.inj h1'
    obtain ⟨e3, -⟩ := Prod.mk.inj (Res.ok.inj e1)
    rw [hv, ← e2, ← e3]
    rfl
  obtain ⟨t', h3, -⟩ := climb_succeeds (f := fun l k v => do addCall .stakeChanged k; pure (v.add (money (S.balance c) (S.delegated c)) l))
    (g := fun l v => v.add (money (S.balance c) (S.delegated c)) l)
    (fun l a v s => ⟨v.add (money (S.balance c) (S.delegated c)) l, { s with calls := (.stakeChanged, a) :: s.calls }, rfl, ⟨⟨rfl, rfl, rfl, rfl, rfl, rfl, rfl, fun _ h => h⟩, rfl⟩,
      rfl, rfl, rfl⟩) 9 2 (infoOf S.store p).referrer t ht (by
      refine affords_congr 9 2 _ _ (g := bump (money (S.balance c) (S.delegated c)) (addKid c)) (fun l hl => bump_ge hl) ?_
      rw [hvt]
      have := ha.2
      have e1 : (view (S.store.set c item) p).referrer = (infoOf S.store p).referrer := by
        show (infoOf (S.store.set c item) p).referrer = _
        rw [hpi]
      rw [e1] at this
      exact this)
  refine ⟨t', ?_⟩
  unfold appendBody
  rw [M.bind_ok (M.get_apply _)]
  have hput : put c (if true then { newInfo (some p) (S.fresh.balance c) (S.fresh.delegated c) with compressionAt := some (S.fresh.now + S.fresh.compressionPeriod) }
      else newInfo (some p) (S.fresh.balance c) (S.fresh.delegated c)) S.fresh = (.ok (), { S with work := S.store.set c item, calls := [] }) := by
    rw [hitem]; rfl
  rw [M.bind_ok hput]
  refine (M.bind_ok h2).trans ?_
  rw [M.bind_ok (show M.errIf false t = (.ok (), t) from rfl)]
  refine (M.bind_ok h3).trans ?_
  rfl

theorem enrol {S : State} {e : Env} (he : ∀ c k, e.call c k = true) {c p : Key} (a : Bool) (hl : Listed S) (hlow : Low S) (hR : Roomy (S.delegated c) S)
    (hd : 0 ≤ S.delegated c) (hc : S.store.has c = false) (hne : c ≠ p) (ho : (infoOf S.store p).closed S.now S.month = false)
    (h4 : Schedule.inRange (S.now + 60 * S.day) = true) :
    ∃ t, register e c p a S = (.ok (), t) ∧ (infoOf t.store c).referrer = some p ∧ (infoOf t.store c).active = a ∧ (infoOf t.store c).banished = false ∧
      c ∈ (infoOf t.store p).referrals ∧ (c ∈ (infoOf t.store p).activeReferrals ↔ a = true) := by
  obtain ⟨w, hw⟩ := appendBody_succeeds hR hd hc hne ho
  have happ : appendChild e p c false true S = (.ok (), { w with store := w.work }) := by
    unfold appendChild
    rw [M.bind_ok (M.get_apply S), hc, M.bind_ok (show M.errIf false S = (.ok (), S) from rfl)]
    have e0 : bunch e (appendBody p c false true) S = (appendBody p c false true >>= fun b => if b then commit e else pure ()) S.fresh := rfl
    rw [e0, M.bind_ok hw, if_pos rfl, commit_fine he]
  have hfr : Frame S.fresh w := by
    have := Framed.appendBody p c false true S.fresh
    rw [hw] at this
    exact this
  obtain ⟨-, -, -, -, hv⟩ := appendBody_ok hw
  have hv0 : view S.fresh.work = view S.store := rfl
  rw [hv0] at hv
  have hL : Listed { w with store := w.work } := by
    have := appendChild_listed (e := e) (p := p) (c := c) (skip := false) (setc := true) hl
    rw [happ] at this
    exact this
  have hlo : Low { w with store := w.work } := by
    have := (Keeps.appendChild e p c false true S hlow).1
    rw [happ] at this
    exact this
  have hall : (fun v : Info => (v.active, v.banished, v.referrer, v.banishmentAt)) (view w.work c) = (false, false, some p, none) := by
    rw [hv]
    refine (climbV_all (π := fun v : Info => (v.active, v.banished, v.referrer, v.banishmentAt))
      (g := bump (money (S.fresh.balance c) (S.fresh.delegated c)) (addKid c))
      (bump_all (π := fun v : Info => (v.active, v.banished, v.referrer, v.banishmentAt)) (L := addKid c) (fun _ _ => rfl) (fun _ => rfl)) 10 1 _ _ c).trans ?_
    rw [upd_self]
    rfl
  have r1 : (infoOf w.work c).active = false := (congrArg Prod.fst hall :)
  have r2 : (infoOf w.work c).banished = false := (congrArg (fun x => x.2.1) hall :)
  have r3 : (infoOf w.work c).referrer = some p := (congrArg (fun x => x.2.2.1) hall :)
  have r4 : (infoOf w.work c).banishmentAt = none := (congrArg (fun x => x.2.2.2) hall :)
  have hper : w.compressionPeriod = 60 * w.day := by unfold State.compressionPeriod State.month; omega
  have hnow : w.now = S.now := hfr.now
  have hday : w.day = S.day := hfr.day
  obtain ⟨u, hu⟩ := schedule_succeeds (time := w.now + w.compressionPeriod) (by rw [hper, hnow, hday]; exact h4) compressionHook [c] { w with store := w.work }
  have q : Quiet { w with store := w.work } u := (Still.request _).of hu
  have hus : u.store = w.work := q.store
  have hreg : register e c p a S = (if a then setActive e c true true else pure () : Act Unit) u := by
    unfold register
    rw [M.bind_ok happ, M.bind_ok (M.get_apply _)]
    exact M.bind_ok hu
  have main : ∃ t, register e c p a S = (.ok (), t) ∧ (infoOf t.store c).referrer = some p ∧ (infoOf t.store c).active = a ∧ (infoOf t.store c).banished = false := by
    cases a with
    | false =>
      refine ⟨u, hreg, ?_, ?_, ?_⟩ <;> rw [hus]
      · exact r3
      · exact r1
      · exact r2
    | true =>
      obtain ⟨t, ht⟩ := activate_succeeds (e := e) he (u := u) (k := c) (by
          refine ⟨⟨by show LowSt u.store; rw [hus]; exact hlo.store, by show LowSt u.store; rw [hus]; exact hlo.store⟩, fun x y hy => ?_, ?_⟩
          · show u.store.has y = true
            have hy : y ∈ (view u.store x).activeReferrals := hy
            rw [hus] at hy ⊢
            have hr : (infoOf w.work y).referrer = some x := ((hL.mem x y).1 hy).1
            cases hh : w.work.has y with
            | true => rfl
            | false => rw [infoOf_of_not_has hh] at hr; cases hr
          · show Schedule.inRange (u.now + 2 * u.day) = true
            have e1 : u.now = w.now := q.now
            have e2 : u.day = w.day := q.day
            rw [e1, e2, hnow, hday]; exact hR.soon) (by
          rw [hus, hv]
          exact enrolled_fits hR hd hc hne _ rfl) (by
          intro x hx
          rw [hus, r4] at hx; cases hx)
      have hrec := setActive_record he ht
      refine ⟨t, by rw [hreg, if_pos rfl]; exact ht, ?_, hrec.1, ?_⟩
      · rw [hrec.2.2, hus]; exact r3
      · rw [hrec.2.1, hus]; exact r2
  obtain ⟨t, ht, s1, s2, s3⟩ := main
  have hstep : step e (.register c p a) S = t := by
    show M.tx (register e c p a) S = t
    unfold M.tx
    rw [ht]
  have it : Good t := hstep ▸ step_good e (.register c p a) S hR.good hne
  have il : Listed t := hstep ▸ step_listed e (.register c p a) S hR.good hl hne
  refine ⟨t, ht, s1, s2, s3, (it.mem p c).2 ⟨s1, s3⟩, ?_⟩
  rw [← s2]
  exact ⟨fun h => ((il.mem p c).1 h).2, fun h => (il.mem p c).2 ⟨s1, h⟩⟩

/-! ### The property -/

/-- **C109**, acceptance, for all executions in which nobody registers as their own referrer and the genesis file is in order, when the callbacks of other
modules succeed, the stored sums of delegations are not negative and leave room for what the newcomer delegates, and the times involved are before 2263. -/
theorem C109_accepted_partial (l : List (Env × Op)) (s : State) (h0 : s.start) (hw : s.work = KV.empty) (h : Along (fun op s => activesOk op s ∧ lowOk op s) l s)
    (e : Env) (he : ∀ c k, e.call c k = true) (c p : Key) (a : Bool) :
    let S := run l s
    S.store.has c = false → S.store.has p = true → Receptive (infoOf S.store p) S.now S.month →
    0 ≤ S.delegated c →
    (∀ b n, n ≤ 10 → 0 ≤ ((List.range (n + 1)).map fun i => (infoOf S.store b).tot .delegated i).sum ∧
      ((List.range (n + 1)).map fun i => (infoOf S.store b).tot .delegated i).sum + S.delegated c < 18446744073709551616) →
    Schedule.inRange (S.now + 2 * S.day) = true → Schedule.inRange (S.now + 60 * S.day) = true →
    ∃ t, register e c p a S = (.ok (), t) ∧ (infoOf t.store c).referrer = some p ∧ (infoOf t.store c).active = a ∧ (infoOf t.store c).banished = false ∧
      c ∈ (infoOf t.store p).referrals ∧ (c ∈ (infoOf t.store p).activeReferrals ↔ a = true) := by
  intro S hc hp ho hd h2 h3 h4
  obtain ⟨hg, hl, hlow⟩ := any_inv l s h0 hw h
  refine enrol he a hl hlow ⟨hg, hlow.store, fun x y hy => ?_, h3, fun b n hn => ?_⟩ hd hc (fun h => ?_) ((receptive_iff ..).2 ho) h4
  · have hr : (infoOf S.store y).referrer = some x := ((hl.mem x y).1 hy).1
    cases hh : S.store.has y with
    | true => rfl
    | false => rw [infoOf_of_not_has hh] at hr; cases hr
  · rw [upTo_sum]
    exact h2 b n hn
  · rw [h, hp] at hc; cases hc

/-- **C109**, refusal, in all states: an account that is already registered cannot register again, and nobody registers below an account that is closed for
registration; nothing changes. -/
theorem C109_refused (e : Env) (c p : Key) (a : Bool) (S : State) (h : S.store.has c = true ∨ c ≠ p ∧ ¬ Receptive (infoOf S.store p) S.now S.month) :
    (register e c p a S).1 ≠ .ok () ∧ step e (.register c p a) S = S := by
  have key : ∀ t, register e c p a S ≠ (.ok (), t) := by
    intro t ht
    unfold register at ht
    rw [M.bind_ok_iff] at ht
    obtain ⟨_, u, hu, _⟩ := ht
    unfold appendChild at hu
    rw [M.bind_ok (M.get_apply S)] at hu
    cases hc : S.store.has c with
    | true =>
      rw [hc] at hu
      have hu : ((.err, S) : Res Unit × State) = (.ok (), u) := hu
      cases hu
    | false =>
      rcases h with h | ⟨hne, h⟩
      · rw [hc] at h; cases h
      rw [hc, M.bind_ok (show M.errIf false S = (.ok (), S) from rfl)] at hu
      have e0 : bunch e (appendBody p c false true) S = (appendBody p c false true >>= fun b => if b then commit e else pure ()) S.fresh := rfl
      rw [e0, M.bind_ok_iff] at hu
      obtain ⟨b, w, hb, -⟩ := hu
      have hcl := (appendBody_ok hb).2.2.2.1 rfl
      rw [upd_ne _ _ (Ne.symm hne)] at hcl
      exact h ((receptive_iff ..).1 hcl)
  have h1 : (register e c p a S).1 ≠ .ok () := fun h => key (register e c p a S).2 (Prod.ext h rfl)
  refine ⟨h1, ?_⟩
  show M.tx (register e c p a) S = S
  unfold M.tx
  cases hx : register e c p a S with
  | mk r t =>
    rw [hx] at h1
    cases r with
    | ok _ => exact absurd rfl h1
    | err => rfl
    | panic => rfl

/-- C109 is false for referrers that are not registered: below account 7, of which nothing is known, account 3 is accepted.  From then on account 7 cannot register. -/
theorem C109_stranger_violation : ∃ (l : List (Env × Op)) (s : State) (c p q : Key), s.start ∧ s.work = KV.empty ∧ Along acceptOk l s ∧ c ≠ p ∧
    (run l s).store.has c = false ∧ (run l s).store.has p = false ∧ (register fine c p true (run l s)).1 = .ok () ∧
    (run l s).store.has q = true ∧ (register fine p q true (run l s)).1 = .ok () ∧
    (register fine p q true (step fine (.register c p true) (run l s))).1 = .err :=
  ⟨[(fine, .top (text 0))], plain, text 3, text 7, text 0, rfl, rfl, ⟨⟨trivial, trivial⟩, trivial⟩, by decide, by decide +kernel, by decide +kernel, by decide +kernel,
    by decide +kernel, by decide +kernel, by decide +kernel⟩

/-- Account 1 has been out of business for too long; account 3 is accepted below account 0 only, and account 1 cannot register again. -/
example : Receptive (infoOf (run outcast plain).store (text 0)) (run outcast plain).now (run outcast plain).month ∧
    ¬ Receptive (infoOf (run outcast plain).store (text 1)) (run outcast plain).now (run outcast plain).month ∧
    (run outcast plain).store.has (text 3) = false ∧ (run outcast plain).store.has (text 0) = true ∧ (run outcast plain).delegated (text 3) = 0 ∧
    (register fine (text 3) (text 0) true (run outcast plain)).1 = .ok () ∧ (register fine (text 3) (text 1) true (run outcast plain)).1 = .err ∧
    (register fine (text 1) (text 0) true (run outcast plain)).1 = .err := by
  rw [← receptive_iff, ← receptive_iff]
  refine ⟨?_, ?_, ?_, ?_, ?_, ?_, ?_, ?_⟩ <;> decide +kernel

example : plain.start ∧ Along (fun op s => activesOk op s ∧ lowOk op s) outcast plain :=
  ⟨rfl, along_imp (fun _ _ h => ⟨h.1.actives, h.2⟩) outcast_ok⟩

end Verif.Referral
