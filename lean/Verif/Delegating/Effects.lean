import Verif.Delegating.Lemmas

/-! Effects of revocations, delegations and their scheduled tasks. -/
namespace Verif.Delegating
open Verif.Util Verif.Bank

theorem getRecord_set (s : State) (a x : Addr) (r : Record) :
    getRecord { s with records := s.records.set a r } x = if x = a then r else getRecord s x := by
  unfold getRecord
  simp only [KV.get_set]
  split <;> simp

/-! ### Record table untouched -/

theorem onBank_records {α : Type} (m : M Bank.State α) (r : KV Nat Record) :
    M.Preserves (fun s : State => s.records = r) (onBank m) := fun _ h => h
theorem mustBank_records (m : M Bank.State Unit) (r : KV Nat Record) :
    M.Preserves (fun s : State => s.records = r) (mustBank m) := fun _ h => h
theorem onSched_records (q : Schedule.Req) (r : KV Nat Record) :
    M.Preserves (fun s : State => s.records = r) (onSched q) := by
  intro s h
  unfold onSched
  cases q.exec? s.sched <;> exact h
theorem convert_records (e : Env) (a : Addr) (m p : Coins) (r : KV Nat Record) :
    M.Preserves (fun s : State => s.records = r) (convert e a m p) :=
  .bind (.panicIf _) fun _ => .bind (onBank_records _ _) fun _ => .bind (.panicIf _) fun _ =>
    .bind (onBank_records _ _) fun _ => .bind (onBank_records _ _) fun _ => onBank_records _ _
theorem accrue_records (e : Env) (a : Addr) (u : Int) (r : KV Nat Record) :
    M.Preserves (fun s : State => s.records = r) (accrue e a u) := by
  unfold accrue
  split
  · exact .pure _
  · split
    · exact .pure _
    · refine .bind (.panicIf _) fun _ => .bind (onBank_records _ _) fun _ => .bind .get fun _ => .bind (.orPanic _) fun _ => ?_
      split
      · exact mustBank_records _ _
      · exact .bind (.panicIf _) fun _ => .bind (.panicIf _) fun _ => .bind (mustBank_records _ _) fun _ => mustBank_records _ _
theorem accrueToValidator_records (e : Env) (a : Addr) (u : Int) (r : KV Nat Record) :
    M.Preserves (fun s : State => s.records = r) (accrueToValidator e a u) := by
  unfold accrueToValidator
  split
  · exact .pure _
  · split
    · exact .pure _
    · refine .bind (.orPanic _) fun _ => .bind (.orPanic _) fun ⟨_, _⟩ => ?_
      simp only
      split
      · exact .pure _
      · exact .bind (.forEach fun _ _ => mustBank_records _ _) fun _ => .bind (.panicIf _) fun _ => onBank_records _ _
theorem accruePart_records (e : Env) (a : Addr) (item : Record) (np : Int) (r : KV Nat Record) :
    M.Preserves (fun s : State => s.records = r) (accruePart e a item np) := by
  unfold accruePart
  split
  · exact .pure _
  · refine .bind .get fun _ => .bind (.orPanic _) fun _ => .bind ?_ fun _ => .bind (onSched_records _ _) fun _ => .pure _
    unfold payInterest
    split
    · exact .bind (accrue_records _ _ _ _) fun _ => accrueToValidator_records _ _ _ _
    · exact .pure _
theorem planAccrue_records (e : Env) (a : Addr) (d : Int) (item : Record) (r : KV Nat Record) :
    M.Preserves (fun s : State => s.records = r) (planAccrue e a d item) := by
  unfold planAccrue
  refine .bind .get fun _ => .bind (.orPanic _) fun _ => ?_
  split
  · exact .pure _
  · exact .bind (onSched_records _ _) fun _ => .pure _

/-! ### Revocation -/

/-- Change of an account's coins when `u` delegated coins are frozen as `ur` coins. -/
def frozen (a : Addr) (u ur : Int) (x : Addr) (d : Denom) : Int :=
  if x = a then (if d = .delegated then - u else if d = .revoking then ur else 0) else 0

theorem onSched_ok {q : Schedule.Req} {s t : State} {u : Unit} (h : onSched q s = (.ok u, t)) :
    ∃ x, q.exec? s.sched = some x ∧ t = { s with sched := x } := by
  unfold onSched at h
  cases hx : q.exec? s.sched with
  | none => rw [hx] at h; simp at h
  | some x => rw [hx] at h; simp at h; exact ⟨x, rfl, h.symm⟩

theorem scheduled_pending {s t : Schedule.State} {T : Int} {h : Nat} {d : List Nat}
    (hx : (Schedule.Req.schedule T h d).exec? s = some t) : Schedule.Pending t ⟨T, h, d, s.next⟩ := by
  obtain ⟨-, -, hst⟩ := Schedule.schedule?_spec hx
  exact ⟨_, by rw [hst, KV.get_set_self], by simp⟩

/-- The parameters a revocation uses. -/
def revokeParams (p : Params) (express : Bool) : RevokeParams := if express then p.express else p.revoke

theorem revokeParams_valid {p : Params} (h : p.validate? = some true) (x : Bool) : (revokeParams p x).validate? = some true := by
  obtain ⟨-, h1, h2, -⟩ := params_accept h
  unfold revokeParams
  split <;> assumption

/-- Effect of a successful revocation of a positive amount; `si` is the state after interest was paid. -/
structure Revoked (e : Env) (a : Addr) (u : Int) (x : Bool) (s si t : State) : Prop where
  interest : Quiet s si
  irecords : si.records = s.records
  accrued : ∃ item, accruePart e a (getRecord s a) (e.now + e.day) s = (.ok item, si)
  enough : u ≤ delegatedOf s a
  small : u < 2 ^ 63
  money : Shift (frozen a u (u - burnt (revokeParams s.params x).burn u))
    (frozen a u (u - burnt (revokeParams s.params x).burn u) a)
    (frozen a u (u - burnt (revokeParams s.params x).burn u) a) si.bank t.bank
  params : t.params = s.params
  record : ∃ item : Record, t.records = s.records.set a item ∧
    item.requests = reqs s a ++ [⟨e.now + (revokeParams s.params x).period * e.day, u - burnt (revokeParams s.params x).burn u⟩] ∧
    item.nextAccrue = (if delegatedOf s a - u ≤ s.bank.params.dustDelegation then none else some (e.now + e.day))
  sched : SchedStep s.sched t.sched
  task : ∃ id, Schedule.Pending t.sched ⟨e.now + (revokeParams s.params x).period * e.day, revokeHook, [a], id⟩

theorem revoke_ok {e : Env} (he : EnvOk e) {a : Addr} {u : Int} {x : Bool} {s t : State} {w : Unit} (hc : Core s)
    (hp : s.params.validate? = some true) (hu : 0 < u) (h : revoke e a u x s = (.ok w, t)) :
    ∃ si, Revoked e a u x s si t := by
  unfold revoke at h
  rw [if_neg (by omega)] at h
  obtain ⟨hen, g1⟩ := M.errIf_bind_ok.1 (M.get_bind_ok.1 h)
  obtain ⟨item, si, h2, g2⟩ := M.bind_ok_iff.1 g1
  obtain ⟨ur, hur, g3⟩ := M.orPanic_bind_ok.1 g2
  obtain ⟨_, s4, h4, g4⟩ := M.bind_ok_iff.1 g3
  obtain ⟨item2, s5, h5, g5⟩ := M.bind_ok_iff.1 g4
  have g6 := M.modify_bind_ok.1 g5
  have hrp : (if x = true then s.params.express else s.params.revoke) = revokeParams s.params x := rfl
  rw [hrp] at hur
  have hsmall := afterBurn_some hur
  obtain ⟨hb, -, -⟩ := afterBurn_spec (revokeParams_valid hp x) hu.le hsmall
  rw [hur] at hb
  injection hb with hb
  subst hb
  have q1 := accruePart_keeps he a (getRecord s a) (e.now + e.day) s hc
  rw [h2] at q1
  have r1 := accruePart_records e a (getRecord s a) (e.now + e.day) s.records s rfl
  rw [h2] at r1
  obtain ⟨it1, -⟩ := accruePart_item h2
  unfold freeze at h4
  rw [if_neg (by omega)] at h4
  obtain ⟨sh, s4e, -, -, -⟩ := convert_ok h4
  obtain ⟨p1, -, p3, p4, p5⟩ := planAccrue_item h5
  have c4 : SchedStep s4.sched s5.sched := by
    have hx : M.Preserves (fun z : State => SchedStep s4.sched z.sched) (planAccrue e a (delegatedOf s a - u) item) := by
      unfold planAccrue
      refine .bind .get fun _ => .bind (.orPanic _) fun _ => ?_
      split
      · exact .pure _
      · refine .bind ?_ fun _ => .pure _
        intro z hz
        unfold onSched
        cases hq : (Schedule.Req.schedule (e.now + e.day) accrueHook [a]).exec? z.sched with
        | none => exact hz
        | some y => exact hz.trans ⟨fun hi => Schedule.exec?_inv hq hi, fun v _ hv => Schedule.exec?_pending hq hv trivial⟩
    have := hx s4 (.refl _)
    rw [h5] at this; exact this
  have pp : s5.params = si.params := by
    have hx : M.Preserves (fun z : State => z.params = s4.params) (planAccrue e a (delegatedOf s a - u) item) := by
      unfold planAccrue
      refine .bind .get fun _ => .bind (.orPanic _) fun _ => ?_
      split
      · exact .pure _
      · refine .bind ?_ fun _ => .pure _
        intro z hz
        unfold onSched
        cases (Schedule.Req.schedule (e.now + e.day) accrueHook [a]).exec? z.sched <;> exact hz
    have := hx s4 rfl
    rw [h5] at this; rw [this, s4e]
  obtain ⟨y, hy, rfl⟩ := onSched_ok g6
  let req : Request := ⟨e.now + (revokeParams s.params x).period * e.day, u - burnt (revokeParams s.params x).burn u⟩
  refine ⟨si, q1, r1, ⟨item, h2⟩, by simpa using hen, hsmall, ?_, ?_, ⟨{ item2 with requests := item2.requests ++ [req] }, ?_, ?_, ?_⟩, ?_, ?_⟩
  · simp only
    rw [p3]
    refine sh.congr ?_ ?_ ?_
    · intro z d; unfold frozen; cases d <;> simp [Coins.amt, Coins.ofDelegated, Coins.ofRevoking]
    · intro d; unfold frozen; cases d <;> simp [Coins.amt, Coins.ofDelegated, Coins.ofRevoking]
    · intro d; unfold frozen; cases d <;> simp [Coins.amt, Coins.ofDelegated, Coins.ofRevoking]
  · simp only; rw [pp, q1.params]
  · simp only; rw [p4, s4e, r1]; rfl
  · simp only; rw [p1, it1]; rfl
  · simp only; rw [p5, s4e]; simp only
    rw [sh.params, q1.bparams]
  · simp only
    have : SchedStep s.sched s4.sched := by rw [s4e]; exact q1.sched
    refine (this.trans c4).trans ⟨fun hi => Schedule.exec?_inv hy hi, fun v _ hv => Schedule.exec?_pending hy hv trivial⟩
  · exact ⟨_, scheduled_pending hy⟩

/-- A forced revocation of everything either goes through or leaves revocations alone. -/
theorem onBanished_cases {e : Env} (he : EnvOk e) {a : Addr} {s : State} (hc : Core s) (hp : s.params.validate? = some true)
    (hr : Schedule.inRange (e.now + s.params.revoke.period * e.day) = true) :
    Quiet s (onBanished e a s).2 ∨ ∃ si, 0 < delegatedOf s a ∧ Revoked e a (delegatedOf s a) false s si (onBanished e a s).2 := by
  have h0 : 0 ≤ delegatedOf s a := hc.nonneg a .delegated
  have hdef : onBanished e a s = (if delegatedOf s a = 0 then pure () else revoke e a (delegatedOf s a) false : M State Unit) s := rfl
  rw [hdef]
  by_cases hz : delegatedOf s a = 0
  · rw [if_pos hz]; left; exact .refl hc
  rw [if_neg hz]
  have hpos : 0 < delegatedOf s a := by omega
  by_cases hok : ∃ t, revoke e a (delegatedOf s a) false s = (.ok (), t)
  · obtain ⟨t, ht⟩ := hok
    obtain ⟨si, hsi⟩ := revoke_ok he hc hp hpos ht
    right; rw [ht]; exact ⟨si, hpos, hsi⟩
  · left
    -- all failures come before the coins are frozen
    have q1 := accruePart_keeps he a (getRecord s a) (e.now + e.day) s hc
    unfold revoke at hok ⊢
    rw [if_neg (by omega)] at hok ⊢
    rw [M.bind_ok (M.get_apply s)] at hok ⊢
    rw [M.bind_ok (s' := s) (a := ()) (by simp)] at hok ⊢
    rcases hap : accruePart e a (getRecord s a) (e.now + e.day) s with ⟨r, si⟩
    rw [hap] at q1
    cases r with
    | err => rw [M.bind_err hap]; exact q1
    | panic => rw [M.bind_panic hap]; exact q1
    | ok item =>
      rw [M.bind_ok hap] at hok ⊢
      have hb := fun h => afterBurn_spec (revokeParams_valid hp false) h0 (u := delegatedOf s a) h
      by_cases hsmall : delegatedOf s a < 2 ^ 63
      · exfalso
        obtain ⟨hb1, hb2, hb3⟩ := hb hsmall
        have hrp : (if false = true then s.params.express else s.params.revoke) = revokeParams s.params false := rfl
        simp only [hrp] at hok
        rw [M.bind_ok (M.orPanic_ok_iff.2 ⟨hb1, rfl⟩)] at hok
        have hbal : (balance si.bank a).amt .delegated = delegatedOf s a := q1.bal a .delegated (by decide)
        obtain ⟨s4, h4⟩ := convert_succ he.hooks (a := a) (minus := Coins.ofDelegated (delegatedOf s a))
          (plus := Coins.ofRevoking (delegatedOf s a - burnt (revokeParams s.params false).burn (delegatedOf s a)))
          q1.core.nonneg q1.core.supply
          (by intro d; cases d <;> simp [Coins.amt, Coins.ofDelegated, h0])
          (by intro d; cases d <;> simp [Coins.amt, Coins.ofRevoking]; omega)
          (by
            intro d
            have hn := q1.core.nonneg a d
            cases d
            · exact hn
            · rw [hbal]; simp [Coins.amt, Coins.ofDelegated]
            · exact hn
            · exact hn)
        have h4' : freeze e a (delegatedOf s a) (delegatedOf s a - burnt (revokeParams s.params false).burn (delegatedOf s a)) si
            = (.ok (), s4) := by unfold freeze; rw [if_neg hz]; exact h4
        rw [M.bind_ok h4'] at hok
        obtain ⟨item2, s5, h5⟩ := planAccrue_succ he a (d := delegatedOf s a - delegatedOf s a) (by omega) item s4
        rw [M.bind_ok h5, M.bind_ok (M.modify_apply _ _)] at hok
        apply hok
        have hr' : Schedule.inRange (e.now + (revokeParams s.params false).period * e.day) = true := hr
        unfold onSched
        simp [Schedule.Req.exec?, Schedule.schedule?, hr']
      · have : afterBurn? (if false = true then s.params.express else s.params.revoke).burn (delegatedOf s a) = none := by
          rcases hx : afterBurn? (if false = true then s.params.express else s.params.revoke).burn (delegatedOf s a) with _ | ur
          · rfl
          · exact absurd (afterBurn_some hx) hsmall
        rw [this, M.bind_panic (M.orPanic_none _)]
        exact q1

/-! ### Releasing -/

theorem insertReq_perm (r : Request) (l : List Request) : (insertReq r l).Perm (r :: l) := by
  induction l with
  | nil => exact .refl _
  | cons x xs ih =>
    unfold insertReq
    split
    · exact (List.Perm.cons x ih).trans (List.Perm.swap r x xs)
    · exact .refl _

theorem sortReqs_perm (l : List Request) : (sortReqs l).Perm l := by
  induction l with
  | nil => exact .refl _
  | cons r rs ih => exact (insertReq_perm r _).trans (List.Perm.cons r ih)

theorem insertReq_sorted (r : Request) {l : List Request} (h : l.Pairwise (fun x y => x.time ≤ y.time)) :
    (insertReq r l).Pairwise (fun x y => x.time ≤ y.time) := by
  induction l with
  | nil => simp [insertReq]
  | cons x xs ih =>
    rw [List.pairwise_cons] at h
    unfold insertReq
    split
    · next hle =>
      rw [List.pairwise_cons]
      refine ⟨fun y hy => ?_, ih h.2⟩
      rcases List.mem_cons.1 ((insertReq_perm r xs).mem_iff.1 hy) with rfl | hy
      · exact hle
      · exact h.1 y hy
    · next hlt =>
      rw [List.pairwise_cons]
      refine ⟨fun y hy => ?_, List.pairwise_cons.2 h⟩
      rcases List.mem_cons.1 hy with rfl | hy
      · omega
      · have := h.1 y hy; omega

theorem sortReqs_sorted (l : List Request) : (sortReqs l).Pairwise (fun x y => x.time ≤ y.time) := by
  induction l with
  | nil => simp [sortReqs]
  | cons r rs ih => exact insertReq_sorted r ih

/-- On a list sorted by time the leading due requests are all the due requests. -/
theorem due_prefix (now : Int) {l : List Request} (h : l.Pairwise (fun x y => x.time ≤ y.time)) :
    l.takeWhile (fun r => decide (r.time ≤ now)) = l.filter (fun r => decide (r.time ≤ now)) ∧
    l.drop (l.takeWhile (fun r => decide (r.time ≤ now))).length = l.filter (fun r => decide (now < r.time)) := by
  induction l with
  | nil => simp
  | cons x xs ih =>
    rw [List.pairwise_cons] at h
    obtain ⟨i1, i2⟩ := ih h.2
    by_cases hx : x.time ≤ now
    · have hx' : ¬ now < x.time := by omega
      simp only [List.takeWhile_cons, hx, decide_true, if_true, List.filter_cons, List.length_cons, List.drop_succ_cons,
        hx', decide_false, Bool.false_eq_true, if_false]
      exact ⟨by rw [i1], i2⟩
    · have hx' : now < x.time := by omega
      have e1 : xs.filter (fun r => decide (r.time ≤ now)) = [] := by
        rw [List.filter_eq_nil_iff]; intro y hy; have := h.1 y hy; simp; omega
      have e2 : xs.filter (fun r => decide (now < r.time)) = xs := by
        rw [List.filter_eq_self]; intro y hy; have := h.1 y hy; simp; omega
      simp [List.takeWhile_cons, hx, List.filter_cons, hx', e1, e2]

/-- Amounts of a list of requests. -/
def amounts (l : List Request) : Int := (l.map Request.amount).sum

theorem amounts_nonneg {l : List Request} (h : ∀ r ∈ l, 0 ≤ r.amount) : 0 ≤ amounts l := by
  apply List.sum_nonneg
  intro q hq
  obtain ⟨r, hr, rfl⟩ := List.mem_map.1 hq
  exact h r hr

/-- Change of an account's coins when `v` coins are released. -/
def released (a : Addr) (v : Int) (x : Addr) (d : Denom) : Int :=
  if x = a then (if d = .main then v else if d = .revoking then - v else 0) else 0

theorem undelegate_spec {e : Env} (he : HooksOk e.bank) {a : Addr} {v : Int} {s : State} (hc : Core s) (h0 : 0 ≤ v)
    (hb : v ≤ (balance s.bank a).revoking) :
    ∃ t, undelegate e a v s = (.ok (), t) ∧ t = { s with bank := t.bank } ∧
      Shift (released a v) (released a v a) (released a v a) s.bank t.bank ∧ Core t := by
  by_cases hz : v = 0
  · subst hz
    refine ⟨s, by simp [undelegate], rfl, (Shift.refl _).congr ?_ ?_ ?_, hc⟩ <;> intros <;> simp [released]
  · obtain ⟨t, ht⟩ := convert_succ he (a := a) (minus := Coins.ofRevoking v) (plus := Coins.ofMain v) hc.nonneg hc.supply
      (by intro d; cases d <;> simp [Coins.amt, Coins.ofRevoking, h0])
      (by intro d; cases d <;> simp [Coins.amt, Coins.ofMain, h0])
      (by
        intro d
        have hn := hc.nonneg a d
        cases d
        · exact hn
        · exact hn
        · exact hb
        · exact hn)
    obtain ⟨sh, te, -, -, -⟩ := convert_ok ht
    have sh' : Shift (released a v) (released a v a) (released a v a) s.bank t.bank := by
      refine sh.congr ?_ ?_ ?_
      · intro z d; unfold released; cases d <;> simp [Coins.amt, Coins.ofMain, Coins.ofRevoking]
      · intro d; unfold released; cases d <;> simp [Coins.amt, Coins.ofMain, Coins.ofRevoking]
      · intro d; unfold released; cases d <;> simp [Coins.amt, Coins.ofMain, Coins.ofRevoking]
    refine ⟨t, by unfold undelegate; rw [if_neg hz]; exact ht, te, sh', ?_, sh'.supplyEq hc.supply, by rw [sh.params]; exact hc.fee⟩
    intro x d
    rw [sh'.bal]
    have hn := hc.nonneg x d
    unfold released
    by_cases hx : x = a
    · subst hx
      cases d <;> simp [Coins.amt] at hn hb ⊢ <;> omega
    · simp [hx]; exact hn

theorem payDue_spec {e : Env} (he : HooksOk e.bank) {a : Addr} (l : List Request) {s : State} (hc : Core s)
    (h0 : ∀ r ∈ l, 0 ≤ r.amount) (hb : amounts l ≤ (balance s.bank a).revoking) :
    ∃ t, payDue e a l s = (.ok (), t) ∧ t = { s with bank := t.bank } ∧ Core t ∧
      Shift (released a (amounts (l.takeWhile (fun r => decide (r.time ≤ e.now)))))
        (released a (amounts (l.takeWhile (fun r => decide (r.time ≤ e.now)))) a)
        (released a (amounts (l.takeWhile (fun r => decide (r.time ≤ e.now)))) a) s.bank t.bank := by
  induction l generalizing s with
  | nil =>
    refine ⟨s, rfl, rfl, hc, (Shift.refl _).congr ?_ ?_ ?_⟩ <;> intros <;> simp [released, amounts]
  | cons r rs ih =>
    have hs : amounts (r :: rs) = r.amount + amounts rs := by simp [amounts]
    have hr := h0 r (by simp)
    have hrs := amounts_nonneg (fun q hq => h0 q (by simp [hq]) : ∀ q ∈ rs, 0 ≤ q.amount)
    by_cases hd : r.time > e.now
    · have hd' : ¬ r.time ≤ e.now := by omega
      refine ⟨s, by simp [payDue, hd], rfl, hc, (Shift.refl _).congr ?_ ?_ ?_⟩ <;> intros <;>
        simp [released, amounts, List.takeWhile_cons, hd']
    · have hd' : r.time ≤ e.now := by omega
      obtain ⟨t1, h1, te1, sh1, c1⟩ := undelegate_spec he (a := a) hc hr (by omega)
      have hb1 : amounts rs ≤ (balance t1.bank a).revoking := by
        have := sh1.bal a .revoking
        simp [released, Coins.amt] at this
        omega
      obtain ⟨t, ht, te, c, sh⟩ := ih c1 (fun q hq => h0 q (by simp [hq])) hb1
      refine ⟨t, ?_, by rw [te, te1], c, ?_⟩
      · unfold payDue
        rw [if_neg hd, M.bind_ok h1]; exact ht
      · have e1 : amounts ((r :: rs).takeWhile (fun r => decide (r.time ≤ e.now))) =
            r.amount + amounts (rs.takeWhile (fun r => decide (r.time ≤ e.now))) := by
          simp [List.takeWhile_cons, hd', amounts]
        rw [e1]
        refine (sh1.trans sh).congr ?_ ?_ ?_
        · intro x d; unfold released; split <;> [split <;> [rfl; split <;> omega]; rfl]
        · intro d; unfold released; simp only [if_true]; split <;> [rfl; split <;> omega]
        · intro d; unfold released; simp only [if_true]; split <;> [rfl; split <;> omega]

/-- `performRevoking` pays exactly the due requests and keeps the others. -/
theorem performRevoking_spec {e : Env} (he : HooksOk e.bank) {a : Addr} {s : State} (hc : Core s)
    (h0 : ∀ r ∈ reqs s a, 0 ≤ r.amount) (hb : amounts (reqs s a) ≤ (balance s.bank a).revoking) :
    ∃ t, performRevoking e a s = (.ok (), t) ∧ Core t ∧ t.params = s.params ∧ t.sched = s.sched ∧
      Shift (released a (amounts ((reqs s a).filter (fun r => decide (r.time ≤ e.now)))))
        (released a (amounts ((reqs s a).filter (fun r => decide (r.time ≤ e.now)))) a)
        (released a (amounts ((reqs s a).filter (fun r => decide (r.time ≤ e.now)))) a) s.bank t.bank ∧
      (reqs t a).Perm ((reqs s a).filter (fun r => decide (e.now < r.time))) ∧ (∀ x, x ≠ a → getRecord t x = getRecord s x) ∧
      (getRecord t a).nextAccrue = (getRecord s a).nextAccrue := by
  unfold performRevoking
  rw [M.bind_ok (M.get_apply s)]
  rcases hg : s.records.get a with _ | item
  · have hr : reqs s a = [] := by simp [reqs, getRecord, hg]
    refine ⟨s, rfl, hc, rfl, rfl, (Shift.refl _).congr ?_ ?_ ?_, by simp [hr], fun _ _ => rfl, rfl⟩ <;>
      intros <;> simp [released, amounts, hr]
  · have hr : reqs s a = item.requests := by simp [reqs, getRecord, hg]
    rw [hr] at h0 hb ⊢
    have hp := sortReqs_perm item.requests
    have hso := sortReqs_sorted item.requests
    have ha : amounts (sortReqs item.requests) = amounts item.requests := (hp.map _).sum_eq
    obtain ⟨t, ht, te, c, sh⟩ := payDue_spec he (a := a) (sortReqs item.requests) hc
      (fun r hr' => h0 r (hp.mem_iff.1 hr')) (by rw [ha]; exact hb)
    obtain ⟨d1, d2⟩ := due_prefix e.now hso
    have ha2 : amounts ((sortReqs item.requests).takeWhile (fun r => decide (r.time ≤ e.now))) =
        amounts (item.requests.filter (fun r => decide (r.time ≤ e.now))) := by
      rw [d1]; exact ((hp.filter _).map _).sum_eq
    rw [ha2] at sh
    have hp2 : ((sortReqs item.requests).drop
        ((sortReqs item.requests).takeWhile (fun r => decide (r.time ≤ e.now))).length).Perm
        (item.requests.filter (fun r => decide (e.now < r.time))) := by rw [d2]; exact hp.filter _
    simp only
    rw [M.bind_ok ht]
    have hrec : ∀ x, getRecord t x = getRecord s x := by intro x; rw [te]; rfl
    by_cases hn : ((sortReqs item.requests).takeWhile (fun r => decide (r.time ≤ e.now))).length = 0
    · rw [if_pos hn]
      refine ⟨t, rfl, c, by rw [te], by rw [te], sh, ?_, fun x _ => hrec x, by rw [hrec]⟩
      rw [hn, List.drop_zero] at hp2
      unfold reqs
      rw [hrec]
      have : (getRecord s a).requests = item.requests := hr
      rw [this]
      exact hp.symm.trans hp2
    · rw [if_neg hn]
      refine ⟨_, rfl, ⟨c.nonneg, c.supply, c.fee⟩, by simp only; rw [te], by simp only; rw [te], sh, ?_, ?_, ?_⟩
      · unfold reqs
        rw [getRecord_set, if_pos rfl]
        exact hp2
      · intro x hx
        rw [getRecord_set, if_neg hx, hrec]
      · rw [getRecord_set, if_pos rfl]
        simp [getRecord, hg]

/-! ### The accrual task -/

theorem fullInterest_range {pc : Frac} {d : Int} {m : Option Frac} {i j : Int} (h : fullInterest? pc d m = some (i, j)) :
    (-(2 ^ 63) ≤ i ∧ i < 2 ^ 63) ∧ (-(2 ^ 63) ≤ j ∧ j < 2 ^ 63) := by
  unfold fullInterest? at h
  simp only [Option.bind_eq_bind, Option.bind_eq_some_iff] at h
  obtain ⟨d64, hd, z, -, i', hi, h⟩ := h
  cases m with
  | none =>
    simp only [Option.some.injEq, Prod.mk.injEq] at h
    obtain ⟨rfl, rfl⟩ := h
    obtain ⟨rfl, h1, h2⟩ := sdkInt64_some hd
    exact ⟨int64_range hi, h1, h2⟩
  | some m =>
    simp only [Option.bind_eq_some_iff] at h
    obtain ⟨_, -, mi, -, _, -, mj, -, h⟩ := h
    simp only [Option.some.injEq, Prod.mk.injEq] at h
    obtain ⟨rfl, rfl⟩ := h
    exact ⟨wrap64_range _, wrap64_range _⟩

theorem setRecord_quiet {a : Addr} {item : Record} {s : State} (hc : Core s) (h : item.requests = reqs s a) :
    Quiet s { s with records := s.records.set a item } := by
  refine ⟨⟨hc.nonneg, hc.supply, hc.fee⟩, ?_, rfl, rfl, fun _ _ _ => rfl, fun _ _ => rfl, .refl _⟩
  intro x
  unfold reqs
  rw [getRecord_set]
  split
  · next hx => subst hx; exact h
  · rfl

theorem performAccrue_quiet {e : Env} (he : EnvOk e) (a : Addr) (time : Int) {s : State} (hc : Core s) :
    Quiet s (performAccrue e a time s).2 := by
  unfold performAccrue
  rw [M.bind_ok (M.get_apply s)]
  rw [M.bind_apply]
  by_cases h1 : (getRecord s a).nextAccrue = some time
  swap
  · simp [h1]; exact .refl hc
  simp only [h1, ne_eq, not_true_eq_false, decide_false, M.panicIf_false]
  rcases hf : flags? e a with _ | f
  · rw [M.bind_panic (M.orPanic_none _)]; exact .refl hc
  rw [M.bind_ok (M.orPanic_some _ _)]
  rcases hpc : percent? s.bank.params.dustDelegation s.params.table (delegatedOf s a) f.1 f.2.1 f.2.2.1 f.2.2.2 with _ | pc
  · rw [M.bind_panic (M.orPanic_none _)]; exact .refl hc
  rw [M.bind_ok (M.orPanic_some _ _)]
  by_cases hz : pc.isZero = true
  · rw [if_pos hz]; exact setRecord_quiet hc rfl
  rw [if_neg hz]
  rcases hij : fullInterest? pc (delegatedOf s a) (getRecord s a).missedPart with _ | ⟨i, j⟩
  · rw [M.bind_panic (M.orPanic_none _)]; exact .refl hc
  rw [M.bind_ok (M.orPanic_some _ _)]
  obtain ⟨hi, hj⟩ := fullInterest_range hij
  have k : Keeps (accrue e a i >>= fun _ => accrueToValidator e a j >>= fun _ =>
      onSched (.schedule (time + e.day) accrueHook [a])) :=
    .bind (accrue_keeps he a hi.2) fun _ => .bind (accrueToValidator_keeps he a hj) fun _ => onSched_keeps fun _ _ => trivial
  have hq := k s hc
  have hrec : M.Preserves (fun z : State => z.records = s.records) (accrue e a i >>= fun _ => accrueToValidator e a j >>= fun _ =>
      onSched (.schedule (time + e.day) accrueHook [a])) :=
    .bind (accrue_records _ _ _ _) fun _ => .bind (accrueToValidator_records _ _ _ _) fun _ => onSched_records _ _
  let item : Record := { nextAccrue := some (time + e.day), requests := (getRecord s a).requests, missedPart := none }
  have hassoc : (accrue e a i >>= fun _ => accrueToValidator e a j >>= fun _ =>
      onSched (.schedule (time + e.day) accrueHook [a]) >>= fun _ =>
      M.modify fun s' : State => { s' with records := s'.records.set a item }) =
    ((accrue e a i >>= fun _ => accrueToValidator e a j >>= fun _ =>
      onSched (.schedule (time + e.day) accrueHook [a])) >>= fun _ =>
      M.modify fun s' : State => { s' with records := s'.records.set a item }) := by
    funext z
    simp only [M.bind_apply]
    rcases accrue e a i z with ⟨r1, z1⟩
    cases r1 <;> simp only
    rcases accrueToValidator e a j z1 with ⟨r2, z2⟩
    cases r2 <;> simp only
  show Quiet s ((accrue e a i >>= fun _ => accrueToValidator e a j >>= fun _ =>
      onSched (.schedule (time + e.day) accrueHook [a]) >>= fun _ =>
      M.modify fun s' : State => { s' with records := s'.records.set a item }) s).2
  rw [hassoc, M.bind_apply]
  have hr := hrec s rfl
  rcases hm : (accrue e a i >>= fun _ => accrueToValidator e a j >>= fun _ =>
    onSched (.schedule (time + e.day) accrueHook [a])) s with ⟨r, t⟩
  rw [hm] at hq hr
  cases r with
  | err => exact hq
  | panic => exact hq
  | ok w =>
    refine hq.trans (setRecord_quiet hq.core ?_)
    simp only [reqs]
    rw [show getRecord t a = getRecord s a by unfold getRecord; rw [hr]]

end Verif.Delegating
