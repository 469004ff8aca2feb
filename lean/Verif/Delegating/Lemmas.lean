import Verif.Delegating.Money
import Verif.Schedule.Lemmas

/-! Effects of the delegating operations. -/
namespace Verif.Delegating
open Verif.Util Verif.Bank

def reqs (s : State) (a : Addr) : List Request := (getRecord s a).requests

/-- What other modules deliver, and what the block clock allows. -/
structure EnvOk (e : Env) : Prop where
  hooks : HooksOk e.bank
  ratios : ∀ a l, e.fees a = some l → RatiosOk l
  day : 0 < e.day
  now : 0 ≤ e.now
  next : e.now + e.day < Schedule.timeEnd

/-- Facts about money that every operation keeps. -/
structure Core (s : State) : Prop where
  nonneg : NonNeg s.bank
  supply : SupplyEq s.bank
  fee : FeeOk s.bank.params.fee

/-- The schedule only changed in ways that leave the revocation tasks alone. -/
structure SchedStep (s t : Schedule.State) : Prop where
  inv : Schedule.Inv s → Schedule.Inv t
  keep : ∀ x : Schedule.Task, x.handler = revokeHook → Schedule.Pending s x → Schedule.Pending t x

theorem SchedStep.refl (s : Schedule.State) : SchedStep s s := ⟨id, fun _ _ h => h⟩
theorem SchedStep.trans {a b c : Schedule.State} (h : SchedStep a b) (g : SchedStep b c) : SchedStep a c :=
  ⟨g.inv ∘ h.inv, fun x hx hp => g.keep x hx (h.keep x hx hp)⟩

/-- Nothing that matters for revocations happened: only main coins moved, money stayed consistent. -/
structure Quiet (s t : State) : Prop where
  core : Core t
  reqs : ∀ a, reqs t a = reqs s a
  params : t.params = s.params
  bparams : t.bank.params = s.bank.params
  bal : ∀ a d, d ≠ .main → (balance t.bank a).amt d = (balance s.bank a).amt d
  sup : ∀ d, d ≠ .main → t.bank.supply.amt d = s.bank.supply.amt d
  sched : SchedStep s.sched t.sched

theorem Quiet.refl {s : State} (h : Core s) : Quiet s s :=
  ⟨h, fun _ => rfl, rfl, rfl, fun _ _ _ => rfl, fun _ _ => rfl, .refl _⟩

theorem Quiet.trans {a b c : State} (h : Quiet a b) (g : Quiet b c) : Quiet a c :=
  ⟨g.core, fun x => (g.reqs x).trans (h.reqs x), g.params.trans h.params, g.bparams.trans h.bparams,
   fun x d hd => (g.bal x d hd).trans (h.bal x d hd), fun d hd => (g.sup d hd).trans (h.sup d hd), h.sched.trans g.sched⟩

/-- The computation is quiet however it ends. -/
def Keeps {α : Type} (m : M State α) : Prop := ∀ s, Core s → Quiet s (m s).2

theorem Keeps.pure {α : Type} (a : α) : Keeps (Pure.pure a : M State α) := fun _ h => .refl h
theorem Keeps.panicIf (c : Bool) : Keeps (M.panicIf c : M State Unit) := by
  intro s h; cases c <;> exact .refl h
theorem Keeps.bind {α β : Type} {m : M State α} {f : α → M State β} (hm : Keeps m) (hf : ∀ a, Keeps (f a)) :
    Keeps (m >>= f) := by
  intro s hs
  have h := hm s hs
  rw [M.bind_apply]
  rcases hm' : m s with ⟨r, s'⟩
  rw [hm'] at h
  cases r with
  | ok a => exact h.trans (hf a s' h.core)
  | err => exact h
  | panic => exact h
theorem Keeps.orPanic_bind {α β : Type} {o : Option α} {f : α → M State β} (h : ∀ a, o = some a → Keeps (f a)) :
    Keeps (M.orPanic o >>= f) := by
  intro s hs
  cases o with
  | none => exact .refl hs
  | some a => exact h a rfl s hs
theorem Keeps.get_bind {β : Type} {f : State → M State β} (h : ∀ s, Keeps (f s)) : Keeps (M.get >>= f) :=
  fun s hs => h s s hs

/-- Money appeared in main balances and in the supply alike. -/
theorem Quiet.of_shift {s t : State} {delta : Addr → Denom → Int} {u : Denom → Int} (hc : Core s)
    (ht : t = { s with bank := t.bank }) (h : Shift delta u u s.bank t.bank) (h0 : ∀ x d, 0 ≤ delta x d)
    (hm : ∀ x d, d ≠ .main → delta x d = 0) (hu : ∀ d, d ≠ .main → u d = 0) : Quiet s t := by
  refine ⟨⟨hc.nonneg.shift h h0, h.supplyEq hc.supply, by rw [h.params]; exact hc.fee⟩, ?_, by rw [ht], h.params, ?_, ?_,
    by rw [ht]; exact .refl _⟩
  · intro a; rw [ht]; rfl
  · intro x d hd; rw [h.bal, hm x d hd]; omega
  · intro d hd; rw [h.supply, hu d hd]; omega

theorem wrap64_range (x : Int) : -(2 ^ 63) ≤ wrap64 x ∧ wrap64 x < 2 ^ 63 := by
  unfold wrap64
  have h1 := Int.le_bmod (x := x) (m := 2 ^ 64) (by norm_num)
  have h2 := Int.bmod_lt (x := x) (m := 2 ^ 64) (by norm_num)
  norm_num at h1 h2 ⊢
  omega

theorem int64_range {x : Frac} {v : Int} (h : x.int64? = some v) : -(2 ^ 63) ≤ v ∧ v < 2 ^ 63 := by
  unfold Frac.int64? at h
  cases hb : x.bigInt? with
  | none => rw [hb] at h; simp at h
  | some b => rw [hb] at h; simp at h; rw [← h]; exact wrap64_range b

theorem sdkInt64_some {x v : Int} (h : sdkInt64? x = some v) : v = x ∧ -(2 ^ 63) ≤ x ∧ x < 2 ^ 63 := by
  unfold sdkInt64? isInt64 at h
  split at h
  · next hh => simp only [decide_eq_true_eq] at hh; injection h with h; exact ⟨h.symm, hh⟩
  · cases h

theorem accrue_keeps {e : Env} (he : EnvOk e) (a : Addr) {u : Int} (hu : u < 2 ^ 63) : Keeps (accrue e a u) := by
  intro s hs
  by_cases h0 : u < 0 ∨ e.profile a = none
  · rw [accrue_other h0]; exact .refl hs
  · simp only [not_or, not_lt] at h0
    obtain ⟨p, hp⟩ := Option.ne_none_iff_exists'.1 h0.2
    obtain ⟨t, fee, ht, te, f0, f1, -, sh⟩ := accrue_spec he.hooks hs.nonneg hs.fee h0.1 hu hp
    rw [ht]
    refine .of_shift hs te sh ?_ ?_ (fun d hd => by simp [onMain, hd])
    · intro x d
      have h1 := onMain_nonneg (x := u - fee) (by omega) d
      have h2 := onMain_nonneg f0 d
      split <;> split <;> omega
    · intro x d hd; simp [onMain, hd]

theorem received_nonneg {l : List (Addr × Int)} (h : ∀ o ∈ l, 0 < o.2) (x : Addr) : 0 ≤ received l x := by
  unfold received
  apply List.sum_nonneg
  intro q hq
  obtain ⟨o, ho, rfl⟩ := List.mem_map.1 hq
  have := h o ho
  split <;> omega

theorem accrueToValidator_keeps {e : Env} (he : EnvOk e) (a : Addr) {u : Int} (hu : -(2 ^ 63) ≤ u ∧ u < 2 ^ 63) :
    Keeps (accrueToValidator e a u) := by
  intro s hs
  by_cases h0 : u < 0 ∨ e.profile a = none ∨ e.fees a = none
  · rw [accrueToValidator_other hu.1 (fun l hl => he.ratios a l hl) h0]; exact .refl hs
  · simp only [not_or, not_lt] at h0
    obtain ⟨p, hp⟩ := Option.ne_none_iff_exists'.1 h0.2.1
    obtain ⟨l, hl⟩ := Option.ne_none_iff_exists'.1 h0.2.2
    obtain ⟨t, ht, te, sh⟩ := accrueToValidator_spec he.hooks hs.nonneg h0.1 hu.2 hp hl (he.ratios a l hl)
    rw [ht]
    refine .of_shift hs te sh ?_ ?_ (fun d hd => by simp [onMain, hd])
    · intro x d
      exact onMain_nonneg (received_nonneg (dueShares_bound h0.1 (he.ratios a l hl)).1 x) d
    · intro x d hd; simp [onMain, hd]

theorem onSched_keeps {r : Schedule.Req} (hr : ∀ x : Schedule.Task, x.handler = revokeHook → r.Spares x) :
    Keeps (onSched r) := by
  intro s hs
  unfold onSched
  cases h : r.exec? s.sched with
  | none => exact .refl hs
  | some t =>
    exact ⟨⟨hs.nonneg, hs.supply, hs.fee⟩, fun _ => rfl, rfl, rfl, fun _ _ _ => rfl, fun _ _ => rfl,
      ⟨fun hi => Schedule.exec?_inv h hi, fun x hx hp => Schedule.exec?_pending h hp (hr x hx)⟩⟩

theorem accrueTask_spares (T : Int) (d : List Nat) (x : Schedule.Task) (hx : x.handler = revokeHook) :
    (Schedule.Req.delete T accrueHook d).Spares x := by
  intro h
  rw [hx] at h
  exact absurd h.2.1 (by decide)

theorem interest_range {e : Env} {s : State} {a : Addr} {item : Record} {next i j : Int}
    (h : interest? e s a item next = some (i, j)) : (-(2 ^ 63) ≤ i ∧ i < 2 ^ 63) ∧ (-(2 ^ 63) ≤ j ∧ j < 2 ^ 63) := by
  unfold interest? at h
  simp only [Option.bind_eq_bind, Option.bind_eq_some_iff] at h
  obtain ⟨dp, -, ⟨p, v, n, st⟩, -, pc, -, d64, -, x, -, x', -, y, -, i', hi, z, -, w, -, j', hj, h⟩ := h
  injection h with h
  injection h with h1 h2
  subst h1 h2
  exact ⟨int64_range hi, int64_range hj⟩

theorem accruePart_keeps {e : Env} (he : EnvOk e) (a : Addr) (item : Record) (np : Int) :
    Keeps (accruePart e a item np) := by
  unfold accruePart
  cases item.nextAccrue with
  | none => exact .pure _
  | some next =>
    refine .get_bind fun s => .orPanic_bind fun ⟨i, j⟩ hij => ?_
    obtain ⟨hi, hj⟩ := interest_range hij
    refine .bind ?_ fun _ => .bind (onSched_keeps (accrueTask_spares _ _)) fun _ => .pure _
    unfold payInterest
    split
    · exact .bind (accrue_keeps he a hi.2) fun _ => accrueToValidator_keeps he a hj
    · exact .pure _

/-- A successful `accruePart` leaves the requests of the record alone. -/
theorem accruePart_item {e : Env} {a : Addr} {item item' : Record} {np : Int} {s t : State}
    (h : accruePart e a item np s = (.ok item', t)) : item'.requests = item.requests ∧ item'.nextAccrue = some np := by
  unfold accruePart at h
  cases hn : item.nextAccrue with
  | none =>
    rw [hn] at h
    simp only [M.pure_apply, Prod.mk.injEq, Res.ok.injEq] at h
    obtain ⟨rfl, -⟩ := h; exact ⟨rfl, rfl⟩
  | some next =>
    rw [hn] at h
    obtain ⟨_, _, -, g⟩ := M.bind_ok_iff.1 h
    obtain ⟨_, _, -, g⟩ := M.bind_ok_iff.1 g
    obtain ⟨_, _, -, g⟩ := M.bind_ok_iff.1 g
    obtain ⟨_, _, -, g⟩ := M.bind_ok_iff.1 g
    simp only [M.pure_apply, Prod.mk.injEq, Res.ok.injEq] at g
    obtain ⟨rfl, -⟩ := g; exact ⟨rfl, rfl⟩

theorem planAccrue_keeps (e : Env) (a : Addr) (d : Int) (item : Record) : Keeps (planAccrue e a d item) := by
  unfold planAccrue
  refine .get_bind fun s => .orPanic_bind fun d64 _ => ?_
  split
  · exact .pure _
  · exact .bind (onSched_keeps fun _ _ => trivial) fun _ => .pure _

theorem planAccrue_item {e : Env} {a : Addr} {d : Int} {item item' : Record} {s t : State}
    (h : planAccrue e a d item s = (.ok item', t)) :
    item'.requests = item.requests ∧ item'.missedPart = item.missedPart ∧ t.bank = s.bank ∧ t.records = s.records ∧
    item'.nextAccrue = (if d ≤ s.bank.params.dustDelegation then none else some (e.now + e.day)) := by
  unfold planAccrue at h
  obtain ⟨s0, _, h0, g⟩ := M.bind_ok_iff.1 h
  simp only [M.get_apply, Prod.mk.injEq, Res.ok.injEq] at h0
  obtain ⟨rfl, rfl⟩ := h0
  obtain ⟨d64, _, h1, g1⟩ := M.bind_ok_iff.1 g
  obtain ⟨h1', rfl⟩ := M.orPanic_ok_iff.1 h1
  obtain ⟨rfl, -, -⟩ := sdkInt64_some h1'
  split at g1
  · next hd =>
    simp only [M.pure_apply, Prod.mk.injEq, Res.ok.injEq] at g1
    obtain ⟨rfl, rfl⟩ := g1; simp [hd]
  · next hd =>
    obtain ⟨_, s2, h2, g2⟩ := M.bind_ok_iff.1 g1
    simp only [M.pure_apply, Prod.mk.injEq, Res.ok.injEq] at g2
    obtain ⟨rfl, rfl⟩ := g2
    unfold onSched at h2
    split at h2
    · simp only [Prod.mk.injEq] at h2
      obtain ⟨-, rfl⟩ := h2
      simp [hd]
    · simp at h2

/-- With the clock in range `planAccrue` succeeds for delegations that fit in 64 bits. -/
theorem planAccrue_succ {e : Env} (he : EnvOk e) (a : Addr) {d : Int} (hd : -(2 ^ 63) ≤ d ∧ d < 2 ^ 63) (item : Record)
    (s : State) : ∃ item' t, planAccrue e a d item s = (.ok item', t) := by
  unfold planAccrue
  rw [M.bind_ok (M.get_apply s), M.bind_ok (M.orPanic_ok_iff.2 ⟨sdkInt64?_eq hd, rfl⟩)]
  split
  · exact ⟨_, _, rfl⟩
  · have hr : Schedule.inRange (e.now + e.day) = true := by
      have := he.day; have := he.now; have := he.next
      simp [Schedule.inRange]; omega
    have hx : ∃ t, (Schedule.Req.schedule (e.now + e.day) accrueHook [a]).exec? s.sched = some t := by
      simp [Schedule.Req.exec?, Schedule.schedule?, hr]
    obtain ⟨t, ht⟩ := hx
    have : onSched (.schedule (e.now + e.day) accrueHook [a]) s = (.ok (), { s with sched := t }) := by
      unfold onSched; rw [ht]
    rw [M.bind_ok this]
    exact ⟨_, _, rfl⟩

/-! ### Conversion helpers -/

/-- The rounded-down burnt share of a revoked amount. -/
def burnt (burn : Frac) (u : Int) : Int := ⌊burn.toRat * u⌋

theorem revokeParams_accept {r : RevokeParams} (h : r.validate? = some true) :
    1 ≤ r.period ∧ r.burn.denom ≠ 0 ∧ 0 ≤ r.burn.toRat ∧ r.burn.toRat ≤ 1 := by
  unfold RevokeParams.validate? at h
  simp only [Option.bind_eq_bind, pure] at h
  by_cases hp : r.period < 1
  · simp [hp] at h
  rw [if_neg hp] at h
  cases hg : r.burn.gt? (Frac.percent 100) with
  | none => rw [hg] at h; simp at h
  | some g =>
    rw [hg] at h
    simp only [Option.bind_some] at h
    by_cases hz : r.burn.denom = 0
    · exfalso
      rw [Frac.gt?, Frac.sub?, C02_zero_denominator_panics _ _ (Or.inl hz)] at hg
      simp at hg
    · have hs := Frac.gt?_spec r.burn (Frac.percent 100) hz (by simp [Frac.percent])
      rw [hg] at hs
      injection hs with hs
      have h1 : (Frac.percent 100).toRat = 1 := by simp [Frac.percent, Frac.toRat]
      rw [h1] at hs
      cases g with
      | true => simp at h
      | false =>
        simp only [Bool.false_eq_true, if_false] at h
        have hn := Frac.isNegative_iff r.burn hz
        cases hneg : r.burn.isNegative with
        | true => rw [hneg] at h; simp at h
        | false =>
          rw [hneg] at hn
          refine ⟨by omega, hz, ?_, ?_⟩
          · by_contra hc
            exact absurd (hn.2 (not_le.1 hc)) (by simp)
          · have := hs.symm
            simp at this; exact this

theorem afterBurn_spec {r : RevokeParams} (h : r.validate? = some true) {u : Int} (h0 : 0 ≤ u) (h1 : u < 2 ^ 63) :
    afterBurn? r.burn u = some (u - burnt r.burn u) ∧ 0 ≤ burnt r.burn u ∧ burnt r.burn u ≤ u := by
  obtain ⟨-, hd, hb0, hb1⟩ := revokeParams_accept h
  have hu : (0 : ℚ) ≤ u := by exact_mod_cast h0
  have hu1 : (u : ℚ) < 2 ^ 63 := by exact_mod_cast h1
  obtain ⟨z, z1, z2⟩ := mulInt_int64 r.burn u hd (mul_nonneg hb0 hu) (by nlinarith)
  refine ⟨by simp [afterBurn?, sdkInt64?_eq ⟨by omega, h1⟩, z1, z2, burnt],
    Int.floor_nonneg.2 (mul_nonneg hb0 hu), ?_⟩
  have : ((burnt r.burn u : Int) : ℚ) ≤ u := (Int.floor_le _).trans (by nlinarith)
  exact_mod_cast this

/-- Amounts that do not fit in 64 bits cannot be revoked. -/
theorem afterBurn_some {b : Frac} {u ur : Int} (h : afterBurn? b u = some ur) : u < 2 ^ 63 := by
  unfold afterBurn? at h
  simp only [Option.bind_eq_bind, Option.bind_eq_some_iff] at h
  obtain ⟨u64, hu, -⟩ := h
  exact (sdkInt64_some hu).2.2

theorem params_accept {p : Params} (h : p.validate? = some true) :
    1 ≤ p.minDelegate ∧ p.revoke.validate? = some true ∧ p.express.validate? = some true ∧ validateTable p.table = true := by
  unfold Params.validate? at h
  simp only [Option.bind_eq_bind, pure] at h
  by_cases hm : p.minDelegate < 1
  · simp [hm] at h
  rw [if_neg hm] at h
  cases h1 : p.revoke.validate? with
  | none => rw [h1] at h; simp at h
  | some b1 =>
    cases b1 with
    | false => rw [h1] at h; simp at h
    | true =>
      cases h2 : p.express.validate? with
      | none => rw [h1, h2] at h; simp at h
      | some b2 =>
        cases b2 with
        | false => rw [h1, h2] at h; simp at h
        | true =>
          rw [h1, h2] at h
          simp at h
          exact ⟨by omega, rfl, rfl, h⟩

end Verif.Delegating
