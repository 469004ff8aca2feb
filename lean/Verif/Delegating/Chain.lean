import Verif.Delegating.Effects

/-! The delegating module inside the chain: transactions, blocks with due tasks, and everything other modules do in
between; the invariant behind C18 and C20. -/
namespace Verif.Delegating
open Verif.Util Verif.Bank

/-- What other modules may do to the state this module works on: anything to main coins as long as the money stays
consistent (C06, C07), any schedule request that does not concern revocation tasks, changes of parameters to accepted
values.  `P` bounds the waiting period. -/
structure Foreign (P : Int) (s t : State) : Prop where
  records : t.records = s.records
  frozen : ∀ a, (balance t.bank a).revoking = (balance s.bank a).revoking
  core : Core t
  params : t.params.validate? = some true
  period : t.params.revoke.period ≤ P
  sched : SchedStep s.sched t.sched

/-- Activity of other modules inside one handler or transaction, with forced revocations (referral's banishment calls
`OnBanished`) in between. -/
inductive Other (P : Int) (e : Env) : State → State → Prop
  | refl (s : State) : Other P e s s
  | foreign {s t u : State} : Other P e s t → Foreign P t u → Other P e s u
  | banish {s t : State} (a : Addr) : Other P e s t → Other P e s (onBanished e a t).2

/-- The due tasks, in order: `PerformSchedule` works on a snapshot (x/schedule/keeper/keeper.go:125-146). -/
def dueTasks (now : Int) (s : Schedule.State) : List Schedule.Task :=
  ((s.store.entries.filter (fun x => decide (x.1 < now + 1))).map Prod.snd).flatten

/-- One task: the hooks of this module (app.go:330-331) or another module's handler `f`.  Panics are recovered and
nothing is rolled back. -/
def runTask (e : Env) (f : Schedule.Task → State → State) (t : Schedule.Task) (s : State) : State :=
  match t.data with
  | [a] =>
    if t.handler = revokeHook then (performRevoking e a s).2
    else if t.handler = accrueHook then (performAccrue e a t.time s).2
    else f t s
  | _ => if t.handler = revokeHook ∨ t.handler = accrueHook then s else f t s

def runTasks (e : Env) (f : Schedule.Task → State → State) : List Schedule.Task → State → State
  | [], s => s
  | t :: ts, s => runTasks e f ts (runTask e f t s)

/-- Begin of a block at time `e.now`: all due tasks, then their removal. -/
def block (e : Env) (f : Schedule.Task → State → State) (s : State) : State :=
  let t := runTasks e f (dueTasks e.now s.sched) s
  { t with sched := { t.sched with store := Schedule.eraseAll t.sched.store (Schedule.dueKeys e.now s.sched) } }

/-- One step of the chain. -/
inductive Step (P : Int) (e : Env) : State → State → Prop
  | delegate (s : State) (a : Addr) (u : Int) : Step P e s (M.tx (msgDelegate e a u) s)
  | revoke (s : State) (a : Addr) (u : Int) (express : Bool) : Step P e s (M.tx (msgRevoke e a u express) s)
  | other {s t : State} : Other P e s t → Step P e s t
  | block (s : State) (f : Schedule.Task → State → State) (hf : ∀ t x, Other P e x (f t x)) : Step P e s (block e f s)

/-- Limits within which the chain runs. -/
structure Limits (P : Int) (e : Env) : Prop extends EnvOk e where
  horizon : e.now + P * e.day < Schedule.timeEnd

/-! ### The invariant -/

structure Base (P : Int) (s : State) : Prop where
  core : Core s
  params : s.params.validate? = some true
  period : s.params.revoke.period ≤ P
  sched : Schedule.Inv s.sched
  ledger : ∀ a, (balance s.bank a).revoking = amounts (reqs s a)
  amounts : ∀ a, ∀ r ∈ reqs s a, 0 ≤ r.amount

/-- Every open request has its task. -/
def Linked (s : State) : Prop :=
  ∀ a, ∀ r ∈ reqs s a, ∃ id, Schedule.Pending s.sched ⟨r.time, revokeHook, [a], id⟩

structure Good (P : Int) (s : State) : Prop extends Base P s where
  linked : Linked s

/-- What any activity at time `now` may do to the open requests; requests described by `K` are not taken away. -/
structure Evolves (P now : Int) (K : Addr → Request → Prop) (s t : State) : Prop where
  base : Base P t
  kept : ∀ a r, K a r → (reqs s a).count r ≤ (reqs t a).count r
  fresh : ∀ a, ∀ r ∈ reqs t a, r ∈ reqs s a ∨ (now < r.time ∧ ∃ id, Schedule.Pending t.sched ⟨r.time, revokeHook, [a], id⟩)
  due : ∀ a r, r.time ≤ now → (reqs t a).count r ≤ (reqs s a).count r
  sched : SchedStep s.sched t.sched

theorem Evolves.refl {K : Addr → Request → Prop} {P now : Int} {s : State} (h : Base P s) : Evolves P now K s s :=
  ⟨h, fun _ _ _ => Nat.le_refl _, fun _ _ hr => Or.inl hr, fun _ _ _ => Nat.le_refl _, .refl _⟩

theorem Evolves.trans {K : Addr → Request → Prop} {P now : Int} {a b c : State} (h : Evolves P now K a b) (g : Evolves P now K b c) : Evolves P now K a c := by
  refine ⟨g.base, fun x r hr => (h.kept x r hr).trans (g.kept x r hr), ?_,
    fun x r hr => (g.due x r hr).trans (h.due x r hr), h.sched.trans g.sched⟩
  intro x r hr
  rcases g.fresh x r hr with hb | hb
  · rcases h.fresh x r hb with ha | ⟨h1, id, h2⟩
    · exact Or.inl ha
    · exact Or.inr ⟨h1, id, g.sched.keep _ rfl h2⟩
  · exact Or.inr hb

theorem Evolves.of_quiet {K : Addr → Request → Prop} {P now : Int} {s t : State} (hb : Base P s) (h : Quiet s t) : Evolves P now K s t := by
  refine ⟨⟨h.core, by rw [h.params]; exact hb.params, by rw [h.params]; exact hb.period, h.sched.inv hb.sched, ?_, ?_⟩, ?_, ?_, ?_, h.sched⟩
  · intro a
    rw [h.reqs, ← hb.ledger a]; exact h.bal a .revoking (by decide)
  · intro a; rw [h.reqs]; exact hb.amounts a
  · intro a r _; rw [h.reqs]
  · intro a r hr; rw [h.reqs] at hr; exact Or.inl hr
  · intro a r _; rw [h.reqs]

theorem Evolves.of_foreign {K : Addr → Request → Prop} {P now : Int} {s t : State} (hb : Base P s) (h : Foreign P s t) : Evolves P now K s t := by
  have hr : ∀ a, reqs t a = reqs s a := by intro a; unfold reqs getRecord; rw [h.records]
  refine ⟨⟨h.core, h.params, h.period, h.sched.inv hb.sched, ?_, ?_⟩, ?_, ?_, ?_, h.sched⟩
  · intro a; rw [h.frozen, hr]; exact hb.ledger a
  · intro a; rw [hr]; exact hb.amounts a
  · intro a r _; rw [hr]
  · intro a r hh; rw [hr] at hh; exact Or.inl hh
  · intro a r _; rw [hr]

theorem Evolves.of_revoked {K : Addr → Request → Prop} {P : Int} {e : Env} {a : Addr} {u : Int} {x : Bool} {s si t : State} (he : EnvOk e)
    (hb : Base P s) (hu : 0 < u) (h : Revoked e a u x s si t) : Evolves P e.now K s t := by
  obtain ⟨item, h1, h2, -⟩ := h.record
  have hrp := revokeParams_valid hb.params x
  obtain ⟨hper, -⟩ := revokeParams_accept hrp
  obtain ⟨-, hb0, hb1⟩ := afterBurn_spec hrp hu.le h.small
  have hr : ∀ y, reqs t y = if y = a then item.requests else reqs s y := by
    intro y
    unfold reqs getRecord
    rw [h1, KV.get_set]
    split <;> simp
  have htime : e.now < e.now + (revokeParams s.params x).period * e.day := by
    have := he.day; nlinarith
  have q := h.interest
  have hcore : Core t := by
    refine ⟨?_, h.money.supplyEq q.core.supply, by rw [h.money.params]; exact q.core.fee⟩
    intro y d
    rw [h.money.bal]
    have hn := q.core.nonneg y d
    unfold frozen
    by_cases hy : y = a
    · subst hy
      have hd := q.bal y .delegated (by decide)
      have he' := h.enough
      unfold delegatedOf at he'
      cases d <;> simp [Coins.amt] at hn hd ⊢ <;> omega
    · simp [hy]; exact hn
  refine ⟨⟨hcore, by rw [h.params]; exact hb.params, by rw [h.params]; exact hb.period, h.sched.inv hb.sched, ?_, ?_⟩, ?_, ?_, ?_, h.sched⟩
  · intro y
    have h3 := h.money.bal y .revoking
    have h4 := q.bal y .revoking (by decide)
    have h5 := hb.ledger y
    rw [hr]
    by_cases hy : y = a
    · subst hy
      rw [if_pos rfl, h2]
      simp [Coins.amt, frozen, Delegating.amounts] at h3 h4 h5 ⊢
      omega
    · rw [if_neg hy]
      simp [Coins.amt, frozen, hy] at h3 h4
      omega
  · intro y r hry
    rw [hr] at hry
    split at hry
    · rw [h2] at hry
      rcases List.mem_append.1 hry with hry | hry
      · exact hb.amounts a r hry
      · simp at hry; subst hry; simp only; omega
    · exact hb.amounts y r hry
  · intro y r _
    rw [hr]
    split
    · next hy => subst hy; rw [h2, List.count_append]; omega
    · exact Nat.le_refl _
  · intro y r hry
    rw [hr] at hry
    split at hry
    · next hy =>
      subst hy
      rw [h2] at hry
      rcases List.mem_append.1 hry with hry | hry
      · exact Or.inl hry
      · simp at hry; subst hry; exact Or.inr ⟨htime, h.task⟩
    · exact Or.inl hry
  · intro y r hle
    rw [hr]
    split
    · next hy =>
      subst hy
      rw [h2, List.count_append]
      have : List.count r [(⟨e.now + (revokeParams s.params x).period * e.day,
          u - burnt (revokeParams s.params x).burn u⟩ : Request)] = 0 := by
        rw [List.count_eq_zero, List.mem_singleton]
        rintro rfl
        simp only at hle; omega
      omega
    · exact Nat.le_refl _

theorem Evolves.of_banished {K : Addr → Request → Prop} {P : Int} {e : Env} (he : Limits P e) {a : Addr} {s : State} (hb : Base P s) :
    Evolves P e.now K s (onBanished e a s).2 := by
  have hrp := revokeParams_valid hb.params false
  obtain ⟨hper, -⟩ := revokeParams_accept hrp
  have hr : Schedule.inRange (e.now + s.params.revoke.period * e.day) = true := by
    have h1 := he.horizon; have h2 := he.day; have h3 := he.now; have h4 := hb.period
    simp only [revokeParams, Bool.false_eq_true, if_false] at hper
    simp only [Schedule.inRange, decide_eq_true_eq]
    constructor <;> nlinarith
  rcases onBanished_cases he.toEnvOk (a := a) hb.core hb.params hr with h | ⟨si, h0, h⟩
  · exact .of_quiet hb h
  · exact .of_revoked he.toEnvOk hb h0 h

theorem Evolves.of_other {K : Addr → Request → Prop} {P : Int} {e : Env} (he : Limits P e) {s t : State} (hb : Base P s) (h : Other P e s t) :
    Evolves P e.now K s t := by
  induction h with
  | refl => exact .refl hb
  | foreign _ hf ih => exact ih.trans (.of_foreign ih.base hf)
  | banish a _ ih => exact ih.trans (.of_banished he ih.base)

theorem Evolves.weaken {P now : Int} {K L : Addr → Request → Prop} {s t : State} (hk : ∀ a r, L a r → K a r)
    (h : Evolves P now K s t) : Evolves P now L s t := ⟨h.base, fun a r hl => h.kept a r (hk a r hl), h.fresh, h.due, h.sched⟩

/-- The revocation task of `a` leaves no due request of `a`. -/
theorem performRevoking_evolves {P : Int} {e : Env} (he : EnvOk e) {a : Addr} {s : State} (hb : Base P s) :
    Evolves P e.now (fun y r => y ≠ a ∨ e.now < r.time) s (performRevoking e a s).2 ∧ ∀ r ∈ reqs (performRevoking e a s).2 a, e.now < r.time := by
  obtain ⟨t, ht, c, hp, hs, sh, hper, hoth, -⟩ := performRevoking_spec he.hooks (a := a) hb.core (hb.amounts a)
    (by rw [hb.ledger a])
  rw [ht]
  dsimp only
  have hr : ∀ y, y ≠ a → reqs t y = reqs s y := fun y hy => by unfold reqs; rw [hoth y hy]
  refine ⟨⟨⟨c, by rw [hp]; exact hb.params, by rw [hp]; exact hb.period, by rw [hs]; exact hb.sched, ?_, ?_⟩, ?_, ?_, ?_, by rw [hs]; exact .refl _⟩, ?_⟩
  · intro y
    have h3 := sh.bal y .revoking
    have h5 := hb.ledger y
    by_cases hy : y = a
    · subst hy
      have e1 : Delegating.amounts (reqs t y) = Delegating.amounts ((reqs s y).filter (fun r => decide (e.now < r.time))) :=
        (hper.map _).sum_eq
      have e2 : Delegating.amounts (reqs s y) = Delegating.amounts ((reqs s y).filter (fun r => decide (r.time ≤ e.now))) +
          Delegating.amounts ((reqs s y).filter (fun r => decide (e.now < r.time))) := by
        generalize reqs s y = l
        induction l with
        | nil => rfl
        | cons x xs ih =>
          unfold Delegating.amounts at ih ⊢
          by_cases hx : x.time ≤ e.now
          · have hx' : ¬ e.now < x.time := by omega
            simp [List.filter_cons, hx, hx'] at ih ⊢; omega
          · have hx' : e.now < x.time := by omega
            simp [List.filter_cons, hx, hx'] at ih ⊢; omega
      simp [Coins.amt, released] at h3
      omega
    · rw [hr y hy]
      simp [Coins.amt, released, hy] at h3
      omega
  · intro y r hry
    by_cases hy : y = a
    · subst hy
      exact hb.amounts y r (List.mem_filter.1 (hper.mem_iff.1 hry)).1
    · rw [hr y hy] at hry; exact hb.amounts y r hry
  · intro y r hlt
    by_cases hy : y = a
    · subst hy
      replace hlt : e.now < r.time := by simpa using hlt
      rw [hper.count_eq, List.count_filter (by simpa using hlt)]
    · rw [hr y hy]
  · intro y r hry
    by_cases hy : y = a
    · subst hy
      exact Or.inl (List.mem_filter.1 (hper.mem_iff.1 hry)).1
    · rw [hr y hy] at hry; exact Or.inl hry
  · intro y r _
    by_cases hy : y = a
    · subst hy
      rw [hper.count_eq]
      exact (List.filter_sublist).count_le r
    · rw [hr y hy]
  · intro r hry
    simpa using (List.mem_filter.1 (hper.mem_iff.1 hry)).2

/-- Due requests are covered by a task still to run. -/
def Covered (now : Int) (l : List Schedule.Task) (s : State) : Prop :=
  ∀ a, ∀ r ∈ reqs s a, r.time ≤ now → ∃ t ∈ l, t.handler = revokeHook ∧ t.data = [a]

theorem runTask_evolves {P : Int} {e : Env} (he : Limits P e) {f : Schedule.Task → State → State}
    (hf : ∀ t x, Other P e x (f t x)) (t : Schedule.Task) {s : State} (hb : Base P s) :
    Evolves P e.now (fun y r => e.now < r.time ∨ ¬ (t.handler = revokeHook ∧ t.data = [y])) s (runTask e f t s) ∧
    ∀ a, t.handler = revokeHook → t.data = [a] → ∀ r ∈ reqs (runTask e f t s) a, e.now < r.time := by
  unfold runTask
  split
  · next a hd =>
    split
    · next hh =>
      obtain ⟨h1, h2⟩ := performRevoking_evolves he.toEnvOk (a := a) hb
      refine ⟨h1.weaken fun y r hy => ?_, fun a' _ hd' => ?_⟩
      · rcases hy with hy | hy
        · exact Or.inr hy
        · left; rintro rfl; exact hy ⟨hh, hd⟩
      rw [hd] at hd'; simp at hd'; subst hd'; exact h2
    · next hh =>
      split
      · exact ⟨.of_quiet hb (performAccrue_quiet he.toEnvOk a t.time hb.core), fun a' h => absurd h hh⟩
      · exact ⟨.of_other he hb (hf t s), fun a' h => absurd h hh⟩
  · next hd =>
    have hd' : ∀ a, t.data ≠ [a] := fun a h => hd a h
    split
    · exact ⟨.refl hb, fun a _ h => absurd h (hd' a)⟩
    · exact ⟨.of_other he hb (hf t s), fun a _ h => absurd h (hd' a)⟩

theorem runTasks_evolves {P : Int} {e : Env} (he : Limits P e) {f : Schedule.Task → State → State}
    (hf : ∀ t x, Other P e x (f t x)) (l : List Schedule.Task) {s : State} (hb : Base P s) :
    Evolves P e.now (fun y r => e.now < r.time ∨ ∀ t ∈ l, ¬ (t.handler = revokeHook ∧ t.data = [y])) s (runTasks e f l s) ∧
    (Covered e.now l s → Covered e.now [] (runTasks e f l s)) := by
  induction l generalizing s with
  | nil => exact ⟨.refl hb, id⟩
  | cons t ts ih =>
    obtain ⟨h1, h2⟩ := runTask_evolves he hf t hb
    obtain ⟨i1, i2⟩ := ih h1.base
    refine ⟨(h1.weaken ?_).trans (i1.weaken ?_), fun hc => i2 ?_⟩
    · rintro y r (hy | hy)
      · exact Or.inl hy
      · exact Or.inr (hy t (by simp))
    · rintro y r (hy | hy)
      · exact Or.inl hy
      · exact Or.inr fun t' ht' => hy t' (by simp [ht'])
    intro a r hr hle
    rcases h1.fresh a r hr with hs | ⟨hs, -⟩
    · obtain ⟨t', ht', hh, hd⟩ := hc a r hs hle
      rcases List.mem_cons.1 ht' with rfl | ht'
      · have := h2 a hh hd r hr; omega
      · exact ⟨t', ht', hh, hd⟩
    · omega

theorem mem_dueTasks {now : Int} {s : Schedule.State} (hi : Schedule.Inv s) {t : Schedule.Task} :
    t ∈ dueTasks now s ↔ t.time ≤ now ∧ Schedule.Pending s t := by
  have := Schedule.mem_log (h := fun _ _ _ => none) (bt := now) hi (t := t)
  rwa [Schedule.performSchedule_log] at this

/-- In a block a due request is released by the first revocation task of its account: until then it is untouched. -/
theorem block_releases {P : Int} {e : Env} (he : Limits P e) {f : Schedule.Task → State → State}
    (hf : ∀ t x, Other P e x (f t x)) {a : Addr} (l : List Schedule.Task) {s : State} (hb : Base P s)
    (hl : ∃ t ∈ l, t.handler = revokeHook ∧ t.data = [a]) :
    ∃ l1 t l2, l = l1 ++ t :: l2 ∧ t.handler = revokeHook ∧ t.data = [a] ∧ Base P (runTasks e f l1 s) ∧
      (∀ r, (reqs s a).count r ≤ (reqs (runTasks e f l1 s) a).count r) ∧
      (∀ r, r.time ≤ e.now → (reqs (runTasks e f l1 s) a).count r ≤ (reqs s a).count r) := by
  induction l generalizing s with
  | nil => simp at hl
  | cons t ts ih =>
    by_cases ht : t.handler = revokeHook ∧ t.data = [a]
    · exact ⟨[], t, ts, rfl, ht.1, ht.2, hb, fun _ => Nat.le_refl _, fun _ _ => Nat.le_refl _⟩
    · obtain ⟨h1, -⟩ := runTask_evolves he hf t hb
      obtain ⟨l1, t', l2, e1, e2, e3, e4, e5, e6⟩ := ih h1.base (by
        obtain ⟨x, hx, hx'⟩ := hl
        rcases List.mem_cons.1 hx with rfl | hx
        · exact absurd hx' ht
        · exact ⟨x, hx, hx'⟩)
      refine ⟨t :: l1, t', l2, by simp [e1], e2, e3, e4, fun r => (h1.kept a r (Or.inr ht)).trans (e5 r),
        fun r hle => (e6 r hle).trans (h1.due a r hle)⟩

/-- A block: requests due are gone, the others wait. -/
theorem block_evolves {P : Int} {e : Env} (he : Limits P e) {f : Schedule.Task → State → State}
    (hf : ∀ t x, Other P e x (f t x)) {s : State} (hg : Good P s) :
    Good P (block e f s) ∧ (∀ a, ∀ r ∈ reqs (block e f s) a, e.now < r.time) ∧
    (∀ a r, e.now < r.time → (reqs s a).count r ≤ (reqs (block e f s) a).count r) := by
  obtain ⟨h1, h2⟩ := runTasks_evolves he hf (dueTasks e.now s.sched) hg.toBase
  have hcov : Covered e.now (dueTasks e.now s.sched) s := by
    intro a r hr hle
    obtain ⟨id, hp⟩ := hg.linked a r hr
    exact ⟨_, (mem_dueTasks hg.sched).2 ⟨hle, hp⟩, rfl, rfl⟩
  have hnone := h2 hcov
  have hfut : ∀ a, ∀ r ∈ reqs (runTasks e f (dueTasks e.now s.sched) s) a, e.now < r.time := by
    intro a r hr
    by_contra hle
    obtain ⟨t, ht, -⟩ := hnone a r hr (by omega)
    simp at ht
  have hget : ∀ T, (block e f s).sched.store.get T = if T ∈ Schedule.dueKeys e.now s.sched then none
      else (runTasks e f (dueTasks e.now s.sched) s).sched.store.get T := fun T => Schedule.get_eraseAll _ _ T
  have hpend : ∀ x : Schedule.Task, e.now < x.time → Schedule.Pending (runTasks e f (dueTasks e.now s.sched) s).sched x →
      Schedule.Pending (block e f s).sched x := by
    rintro x hx ⟨l, hl, hm⟩
    refine ⟨l, ?_, hm⟩
    rw [hget, if_neg]
    · exact hl
    · rw [Schedule.mem_dueKeys]; rintro ⟨h, -⟩; omega
  have hinv : Schedule.Inv (block e f s).sched := by
    have hi := h1.base.sched
    have hsub : ∀ T l, (block e f s).sched.store.get T = some l →
        (runTasks e f (dueTasks e.now s.sched) s).sched.store.get T = some l := by
      intro T l hl
      rw [hget] at hl
      split at hl
      · cases hl
      · exact hl
    exact ⟨fun T l hl => hi.bucket T l (hsub T l hl),
      fun T l T' l' t t' hl hl' ht ht' hid => hi.uniq T l T' l' t t' (hsub _ _ hl) (hsub _ _ hl') ht ht' hid⟩
  have hb := h1.base
  refine ⟨⟨⟨⟨hb.core.nonneg, hb.core.supply, hb.core.fee⟩, hb.params, hb.period, hinv, hb.ledger, hb.amounts⟩, ?_⟩, hfut, fun a r hr => h1.kept a r (Or.inl hr)⟩
  intro a r hr
  rcases h1.fresh a r hr with hs | ⟨hs, id, hp⟩
  · obtain ⟨id, hp⟩ := hg.linked a r hs
    exact ⟨id, hpend _ (hfut a r hr) (h1.sched.keep _ rfl hp)⟩
  · exact ⟨id, hpend _ hs hp⟩

theorem Good.of_evolves {K : Addr → Request → Prop} {P now : Int} {s t : State} (hg : Good P s) (h : Evolves P now K s t) : Good P t := by
  refine ⟨h.base, fun a r hr => ?_⟩
  rcases h.fresh a r hr with hs | ⟨-, hp⟩
  · obtain ⟨id, hp⟩ := hg.linked a r hs
    exact ⟨id, h.sched.keep _ rfl hp⟩
  · exact hp

/-! ### Delegation -/

/-- Change of coins when `v` main coins become delegated. -/
def delegated (a : Addr) (v : Int) (x : Addr) (d : Denom) : Int :=
  if x = a then (if d = .main then - v else if d = .delegated then v else 0) else 0

/-- Fee of a payment of `u`. -/
def feePaid (e : Env) (a : Addr) (fee : Int) (x : Addr) (d : Denom) : Int :=
  (if x = a then - onMain fee d else 0) + (if x = e.bank.splitCollector then onMain fee d else 0)

/-- Effect of a successful delegation: `s1` after the fee, `s2` after interest. -/
structure Delegated (e : Env) (a : Addr) (u fee : Int) (s s1 s2 t : State) : Prop where
  min : s.params.minDelegate ≤ u
  rate : txFeeOf? s.bank.params (Coins.ofMain u) = some fee
  fee0 : 0 ≤ fee
  paid : Shift (feePaid e a fee) (fun _ => 0) (fun _ => 0) s.bank s1.bank
  s1eq : s1 = { s with bank := s1.bank }
  core1 : Core s1
  interest : Quiet s1 s2
  accrued : ∃ item, accruePart e a (getRecord s a) (e.now + e.day) s1 = (.ok item, s2)
  irecords : s2.records = s.records
  money : Shift (delegated a (u - fee)) (delegated a (u - fee) a) (delegated a (u - fee) a) s2.bank t.bank
  core : Core t
  params : t.params = s.params
  record : ∃ item : Record, t.records = s.records.set a item ∧ item.requests = reqs s a ∧
    item.nextAccrue = (if delegatedOf t a ≤ s.bank.params.dustDelegation then none else some (e.now + e.day))
  sched : SchedStep s.sched t.sched

theorem delegate_ok {e : Env} (he : EnvOk e) {a : Addr} {u : Int} {s t : State} {w : Unit} (hc : Core s)
    (h : delegateMsg e a u s = (.ok w, t)) : ∃ fee s1 s2, Delegated e a u fee s s1 s2 t := by
  unfold delegateMsg at h
  obtain ⟨hmin, g1⟩ := M.errIf_bind_ok.1 (M.get_bind_ok.1 h)
  obtain ⟨hpos, g2⟩ := M.panicIf_bind_ok.1 g1
  obtain ⟨fee, s1, h1, g3⟩ := M.bind_ok_iff.1 g2
  have g4 := M.get_bind_ok.1 g3
  obtain ⟨item, s2, h2, g5⟩ := M.bind_ok_iff.1 g4
  obtain ⟨_, s3, h3, g6⟩ := M.bind_ok_iff.1 g5
  have g7 := M.get_bind_ok.1 g6
  obtain ⟨item2, s4, h4, g8⟩ := M.bind_ok_iff.1 g7
  simp only [M.modify_apply, Prod.mk.injEq] at g8
  obtain ⟨-, rfl⟩ := g8
  obtain ⟨h1', e1⟩ := onBank_ok_iff.1 h1
  obtain ⟨mv, tot, hf, f0, hle⟩ := payTxFee_moved h1'
  have paid : Shift (feePaid e a fee) (fun _ => 0) (fun _ => 0) s.bank s1.bank := by
    refine ⟨fun x d => ?_, fun d => by simp [mv.supply], fun d => by simp [tot], mv.params⟩
    rw [mv.bal]; simp only [feePaid, amt_main]
  have c1 : Core s1 := by
    refine ⟨?_, paid.supplyEq hc.supply, by rw [paid.params]; exact hc.fee⟩
    have := payTxFee_nonneg e.bank a (Coins.ofMain u) s.bank hc.nonneg
    rw [h1'] at this; exact this
  have q2 := accruePart_keeps he a (getRecord s1 a) (e.now + e.day) s1 c1
  rw [h2] at q2
  dsimp only at q2
  have r2 := accruePart_records e a (getRecord s1 a) (e.now + e.day) s1.records s1 rfl
  rw [h2] at r2
  dsimp only at r2
  have hrec1 : getRecord s1 a = getRecord s a := by rw [e1]; rfl
  obtain ⟨it1, -⟩ := accruePart_item h2
  have hd : Shift (delegated a (u - fee)) (delegated a (u - fee) a) (delegated a (u - fee) a) s2.bank s3.bank ∧
      s3 = { s2 with bank := s3.bank } ∧ Core s3 := by
    unfold delegate at h3
    by_cases hz : u - fee = 0
    · rw [if_pos hz] at h3
      simp only [M.pure_apply, Prod.mk.injEq] at h3
      obtain ⟨-, rfl⟩ := h3
      refine ⟨(Shift.refl _).congr ?_ ?_ ?_, rfl, q2.core⟩ <;> intros <;> simp [delegated, hz]
    · rw [if_neg hz] at h3
      obtain ⟨sh, se, v1, v2, hb⟩ := convert_ok h3
      have sh' : Shift (delegated a (u - fee)) (delegated a (u - fee) a) (delegated a (u - fee) a) s2.bank s3.bank := by
        refine sh.congr ?_ ?_ ?_
        · intro z d; unfold delegated; cases d <;> simp [Coins.amt, Coins.ofMain, Coins.ofDelegated]
        · intro d; unfold delegated; cases d <;> simp [Coins.amt, Coins.ofMain, Coins.ofDelegated]
        · intro d; unfold delegated; cases d <;> simp [Coins.amt, Coins.ofMain, Coins.ofDelegated]
      refine ⟨sh', se, ?_, sh.supplyEq q2.core.supply, by rw [sh.params]; exact q2.core.fee⟩
      intro x d
      rw [sh.bal]
      have hn := q2.core.nonneg x d
      have h1 := v2 d
      have h2 := hb d
      split
      · next hx => subst hx; omega
      · omega
  obtain ⟨sh3, e3, c3⟩ := hd
  have q4 := planAccrue_keeps e a (delegatedOf s3 a) item s3 c3
  rw [h4] at q4
  dsimp only at q4
  obtain ⟨p1, -, p3, p4, p5⟩ := planAccrue_item h4
  refine ⟨fee, s1, s2, by simpa using hmin, hf, f0, paid, e1, c1, q2, ⟨item, by rw [← hrec1]; exact h2⟩, ?_, ?_, ?_, ?_,
    ⟨item2, ?_, ?_, ?_⟩, ?_⟩
  · rw [r2, e1]
  · simp only; rw [p3]; exact sh3
  · exact ⟨by simp only; rw [p3]; exact c3.nonneg, by simp only; rw [p3]; exact c3.supply, by simp only; rw [p3]; exact c3.fee⟩
  · simp only; rw [q4.params, e3]; simp only; rw [q2.params, e1]
  · simp only; rw [p4, e3]; simp only; rw [r2, e1]
  · rw [p1, it1, hrec1]; rfl
  · rw [p5]
    have : s3.bank.params = s.bank.params := by rw [sh3.params, q2.bparams, paid.params]
    rw [this]
    simp only [delegatedOf, p3]
    rfl
  · have a1 : SchedStep s.sched s1.sched := by rw [e1]; exact .refl _
    have a3 : SchedStep s2.sched s3.sched := by rw [e3]; exact .refl _
    exact ((a1.trans q2.sched).trans a3).trans q4.sched

theorem Evolves.of_delegated {K : Addr → Request → Prop} {P now : Int} {e : Env} {a : Addr} {u fee : Int} {s s1 s2 t : State} (hb : Base P s)
    (h : Delegated e a u fee s s1 s2 t) : Evolves P now K s t := by
  obtain ⟨item, h1, h2, -⟩ := h.record
  have hr : ∀ y, reqs t y = reqs s y := by
    intro y
    show ((t.records.get y).getD {}).requests = _
    rw [h1, KV.get_set]
    split
    · next hy => subst hy; simpa using h2
    · rfl
  refine ⟨⟨h.core, by rw [h.params]; exact hb.params, by rw [h.params]; exact hb.period, h.sched.inv hb.sched, ?_, ?_⟩, ?_, ?_, ?_, h.sched⟩
  · intro y
    rw [hr, ← hb.ledger y]
    have h3 := h.money.bal y .revoking
    have h4 := h.interest.bal y .revoking (by decide)
    have h5 := h.paid.bal y .revoking
    simp [Coins.amt, delegated, feePaid, onMain] at h3 h4 h5
    omega
  · intro y; rw [hr]; exact hb.amounts y
  · intro y r _; rw [hr]
  · intro y r hh; rw [hr] at hh; exact Or.inl hh
  · intro y r _; rw [hr]

theorem Step.evolves {P : Int} {e : Env} (he : Limits P e) {s t : State} (hg : Good P s) (h : Step P e s t) :
    Good P t ∧ (∀ a r, e.now < r.time → (reqs s a).count r ≤ (reqs t a).count r) := by
  have key : ∀ {x : State}, Evolves P e.now (fun _ r => e.now < r.time) s x → Good P x ∧
      (∀ a r, e.now < r.time → (reqs s a).count r ≤ (reqs x a).count r) := fun hx => ⟨hg.of_evolves hx, hx.kept⟩
  cases h with
  | delegate a u =>
    rcases M.tx_cases (msgDelegate e a u) s with ⟨w, hw⟩ | ⟨-, hw⟩
    · obtain ⟨-, g⟩ := M.errIf_bind_ok.1 hw
      obtain ⟨fee, s1, s2, hd⟩ := delegate_ok he.toEnvOk hg.core g
      exact key (.of_delegated hg.toBase hd)
    · rw [hw]; exact key (.refl hg.toBase)
  | revoke a u x =>
    rcases M.tx_cases (msgRevoke e a u x) s with ⟨w, hw⟩ | ⟨-, hw⟩
    · obtain ⟨hpos, g⟩ := M.errIf_bind_ok.1 hw
      obtain ⟨si, hd⟩ := revoke_ok he.toEnvOk hg.core hg.params (by simpa using hpos) g
      exact key (.of_revoked he.toEnvOk hg.toBase (by simpa using hpos) hd)
    · rw [hw]; exact key (.refl hg.toBase)
  | other ho => exact key (.of_other he hg.toBase ho)
  | block f hf =>
    obtain ⟨h1, -, h3⟩ := block_evolves he hf hg
    exact ⟨h1, h3⟩

end Verif.Delegating
