import Verif.Noding.Props

/-! Properties C29 and C31–C34: selection limits, ban, jail, criteria, the lottery queue. -/
namespace Verif.Noding
open Verif.Util

/-! ### C29 -/

/-- C29 except for the number of lucky validators: at the end of a block of any execution whoever is chosen was switched on, not
jailed and not banned; the top validators are exactly as many as the limit allows; nobody outside the top has a higher score than
anybody in the top. -/
theorem C29_top {s : State} (hs : Start s) {l : List (Env × Op)} (hsort : ∀ x ∈ l, SortOk x.1.sort) {e : Env} (he : SortOk e.sort) :
    ∃ t u, gather e (runs l s) = some (t, u) ∧
      (∀ a, validatorState t a = .top ∨ validatorState t a = .lucky →
        ∃ i, (runs l s).records.get a = some i ∧ i.status = true ∧ i.jailed = false ∧ i.banned = false) ∧
      (∃ tops : List Addr, tops.Nodup ∧ (∀ a, a ∈ tops ↔ validatorState t a = .top) ∧
        tops.length = min (runs l s).params.maxValidators (actives (runs l s)).length) ∧
      (∀ a b, validatorState t a = .top → validatorState t b = .lucky ∨ validatorState t b = .spare →
        ∃ i j, t.records.get a = some i ∧ t.records.get b = some j ∧ j.score ≤ i.score) := by
  have hg := hs.good.runs hsort
  obtain ⟨t, u, ht⟩ := hg.total he
  obtain ⟨-, top, rest, mid, O, S⟩ := hg.gather he ht
  have hact : ∀ x ∈ top ++ rest, ∃ i, (runs l s).records.get x.acc = some i ∧ i.status = true ∧ i.jailed = false ∧ i.banned = false := by
    intro x hx
    obtain ⟨h1, h2⟩ := S.mem x hx
    simp only [Info.isActive, Bool.and_eq_true, Bool.not_eq_true'] at h2
    exact ⟨x.info, h1, h2.1.1, h2.1.2, h2.2⟩
  refine ⟨t, u, ht, ?_, ⟨top.map Row.acc, ?_, fun a => S.top_iff.symm, ?_⟩, ?_⟩
  · rintro a (h | h)
    · obtain ⟨x, hx, rfl⟩ := List.mem_map.1 (S.top_iff.1 h)
      exact hact x (List.mem_append_left _ hx)
    · obtain ⟨x, hx, rfl, -⟩ := S.lucky_iff.1 h
      exact hact x (List.mem_append_right _ hx)
  · have := S.nodup
    rw [List.map_append, List.nodup_append] at this
    exact this.1
  · rw [List.length_map]; exact S.size
  · intro a b ha hb
    obtain ⟨x, hx, rfl⟩ := List.mem_map.1 (S.top_iff.1 ha)
    obtain ⟨y, hy, hyb⟩ : ∃ y ∈ rest, y.acc = b := by
      rcases hb with hb | hb
      · obtain ⟨y, hy, h, -⟩ := S.lucky_iff.1 hb; exact ⟨y, hy, h⟩
      · obtain ⟨y, hy, h, -⟩ := S.spare_iff.1 hb; exact ⟨y, hy, h⟩
    subst hyb
    refine ⟨_, _, S.row x (List.mem_append_left _ hx), S.row y (List.mem_append_right _ hy), ?_⟩
    have := S.sorted
    rw [List.pairwise_append] at this
    have := this.2.2 x hx y hy
    show y.info.score ≤ x.info.score
    omega

/-- C29, the number of lucky validators, for executions without a stake drop of a queued validator below the criteria (see
`C29_too_many_lucky`): at most as many as the parameter says, and they stood in the queue before everybody who stood there in vain. -/
theorem C29_lucky_partial {s : State} (hs : Start s) {l : List (Env × Op)} (hsort : ∀ x ∈ l, SortOk x.1.sort) (hc : Calm l s) {e : Env}
    (he : SortOk e.sort) {t : State} {u : List Upd} (ht : gather e (runs l s) = some (t, u)) :
    (∀ luckies : List Addr, luckies.Nodup → (∀ a ∈ luckies, validatorState t a = .lucky) →
      luckies.length ≤ (runs l s).params.lotteryValidators) ∧
    (∀ a b, validatorState t a = .lucky → validatorState t b = .spare → no (runs l s) b ≠ 0 →
      no (runs l s) a ≠ 0 ∧ no (runs l s) a < no (runs l s) b) := by
  have hg := hs.good.runs hsort
  obtain ⟨-, top, rest, mid, O, S⟩ := hg.gather he ht
  exact ⟨fun luckies hnd h => lucky_le O S (hs.linked.runs hs.good hsort hc) hnd h, fun a b => lucky_before O S⟩

/-- One top place, one lucky place, three candidates; in the second block the first of the queue is lucky. -/
def Ex.three : List (Env × Op) :=
  [(Ex.env 1, .switchOn 1 71), (Ex.env 1, .switchOn 2 72), (Ex.env 1, .switchOn 3 73), (Ex.env 1, .gather), (Ex.env 2, .tick 1)]

theorem Ex.three_sorted : ∀ x ∈ Ex.three, SortOk x.1.sort := by
  intro x hx
  simp only [Ex.three, List.mem_cons, List.not_mem_nil, or_false] at hx
  rcases hx with rfl | rfl | rfl | rfl | rfl <;> exact sortBefore_ok

example : Calm Ex.three (Ex.start 1 1) ∧
    ((gather (Ex.env 2) (runs Ex.three (Ex.start 1 1))).map fun x => (validatorState x.1 1, validatorState x.1 2, validatorState x.1 3)) =
      some (.top, .lucky, .spare) := by
  refine ⟨?_, by decide +kernel⟩
  simp [Calm, Ex.three]

/-- The full claim fails: when the stake of a queued validator drops below the criteria `OnStakeChanged` deletes its queue entry and
leaves its record untouched, so the number is given out again and two validators are lucky at once although the limit is one. -/
theorem C29_too_many_lucky : ∃ (s : State) (l : List (Env × Op)) (e : Env), Start s ∧ (∀ x ∈ l, SortOk x.1.sort) ∧ SortOk e.sort ∧
    (runs l s).params.lotteryValidators = 1 ∧ ∃ t u, gather e (runs l s) = some (t, u) ∧
      validatorState t 2 = .lucky ∧ validatorState t 3 = .lucky := by
  refine ⟨Ex.start 1 1, [(Ex.env 1, .switchOn 1 71), (Ex.env 1, .switchOn 2 72), (Ex.env 1, .gather), (Ex.env 2 (stake := 10), .stakeChanged 2),
    (Ex.env 3, .switchOn 3 73), (Ex.env 3, .gather)], Ex.env 4, Ex.start_ok 1 1 (by omega), ?_, sortBefore_ok, by decide +kernel, ?_⟩
  · intro x hx
    simp only [List.mem_cons, List.not_mem_nil, or_false] at hx
    rcases hx with rfl | rfl | rfl | rfl | rfl | rfl <;> exact sortBefore_ok
  · generalize hl : ([(Ex.env 1, .switchOn 1 71), (Ex.env 1, .switchOn 2 72), (Ex.env 1, .gather), (Ex.env 2 (stake := 10), .stakeChanged 2),
      (Ex.env 3, .switchOn 3 73), (Ex.env 3, .gather)] : List (Env × Op)) = l
    have h : (gather (Ex.env 4) (runs l (Ex.start 1 1))).map (fun x => (validatorState x.1 2, validatorState x.1 3)) = some (.lucky, .lucky) := by
      subst hl; decide +kernel
    cases hx : gather (Ex.env 4) (runs l (Ex.start 1 1)) with
    | none => rw [hx] at h; cases h
    | some x =>
      rw [hx] at h
      simp only [Option.map_some, Option.some.injEq, Prod.mk.injEq] at h
      exact ⟨x.1, x.2, rfl, h.1, h.2⟩

/-! ### C31 -/

/-- The account is banned. -/
def Banned (s : State) (a : Addr) : Prop := ∃ i, s.records.get a = some i ∧ i.banned = true

theorem banned_run (e : Env) (s : State) (op : Op) {b : Addr} (h : Banned s b) : Banned (op.run e s) b := by
  obtain ⟨i, hi, hb⟩ := h
  obtain ⟨j, hj, hc⟩ := run_change e s op hi
  refine ⟨j, hj, ?_⟩
  rcases hc with hc | ⟨j', hc, hjc⟩
  · rw [(core_fields hc).2.2.2.2.1, hb]
  · rw [(core_fields hjc).2.2.2.2.1]
    cases hc with
    | on i k st h1 h2 => rw [h1] at hb; cases hb
    | banned i h => rfl
    | pardoned i => unfold Info.amnesty; split <;> exact hb
    | _ => exact hb

/-- C31: once banned, a validator stays banned whatever operations follow, is not active, cannot switch on, and has no power
after any block end from then on. -/
theorem C31 {s : State} {b : Addr} (h : Banned s b) (l : List (Env × Op)) :
    Banned (runs l s) b ∧ isValidator (runs l s) b = false ∧ validatorState (runs l s) b = .ban ∧
      (∀ e k, switchOn e (runs l s) b k = none) ∧
      (∀ e, Good s → SortOk e.sort → (∀ x ∈ l, SortOk x.1.sort) → ∃ t u, gather e (runs l s) = some (t, u) ∧
        ∃ i, t.records.get b = some i ∧ i.lastPower = 0) := by
  have hb : Banned (runs l s) b := runs_keep (P := fun s => Banned s b) (fun x _ s hs => banned_run x.1 s x.2 hs) h
  obtain ⟨i, hi, hbi⟩ := hb
  refine ⟨⟨i, hi, hbi⟩, ?_, ?_, ?_, ?_⟩
  · simp [isValidator, hi, Info.isActive, hbi]
  · simp [validatorState, hi, hbi]
  · intro e k
    unfold switchOn
    split
    · rfl
    · simp [hi, hbi]
  · intro e hg he hsort
    have hg := hg.runs hsort
    obtain ⟨t, u, ht⟩ := hg.total he
    obtain ⟨-, top, rest, mid, O, S⟩ := hg.gather he ht
    refine ⟨t, u, ht, i.clear, ?_, rfl⟩
    rw [S.other b ?_, hi]; · rfl
    intro hin
    obtain ⟨x, hx, rfl⟩ := List.mem_map.1 hin
    obtain ⟨h1, h2⟩ := S.mem x hx
    rw [hi] at h1; cases h1
    simp [Info.isActive, hbi] at h2

/-- A ban follows the second piece of evidence. -/
theorem C31_second_infraction {e : Env} {s : State} {b : Addr} {i : Info} (hi : s.records.get b = some i) (h : 0 < i.infractions) :
    Banned ((Op.byzantine b).run e s) b := by
  show Banned ((markByzantine s b).getD s) b
  have hu : markByzantine s b = some _ := update_eq.2 ⟨i, hi, rfl⟩
  rw [hu]
  refine ⟨_, KV.get_set_self .., ?_⟩
  dsimp only
  rw [if_pos (by omega)]
  exact (core_fields (core_leaveQueue ..)).2.2.2.2.1

/-- The first piece of evidence does not ban, the second does; amnesty, staff membership and a new switch-on do not help. -/
example : ((runs [(Ex.env 1, .switchOn 1 71), (Ex.env 1, .gather), (Ex.env 2, .byzantine 1)] (Ex.start 3 0)).records.get 1).map Info.banned = some false ∧
    ((runs [(Ex.env 1, .switchOn 1 71), (Ex.env 1, .gather), (Ex.env 2, .byzantine 1), (Ex.env 3, .byzantine 1), (Ex.env 4, .amnesty),
      (Ex.env 4, .addStaff 1), (Ex.env 4, .switchOn 1 74), (Ex.env 4, .gather)] (Ex.start 3 0)).records.get 1).map
        (fun i => (i.banned, i.isActive, i.lastPower)) = some (true, false, 0) := by decide +kernel

/-! ### C32 -/

/-- The account is in jail. -/
def Jailed (s : State) (a : Addr) : Prop := ∃ i, s.records.get a = some i ∧ i.jailed = true

theorem jailed_step (e : Env) (s : State) (op : Op) {b : Addr} {i : Info} (hi : s.records.get b = some i) (hj : i.jailed = true)
    (hu : op = .unjail b → e.height < i.unjailAt) :
    ∃ j, (op.run e s).records.get b = some j ∧ j.jailed = true ∧ j.unjailAt = i.unjailAt := by
  obtain ⟨j, hg, hc⟩ := run_change e s op hi
  refine ⟨j, hg, ?_⟩
  rcases hc with hc | ⟨j', hc, hjc⟩
  · have := core_fields hc
    exact ⟨this.2.2.1 ▸ hj, this.2.2.2.1⟩
  · have hf := core_fields hjc
    rw [hf.2.2.1, hf.2.2.2.1]
    cases hc with
    | jailed i h0 => rw [h0] at hj; cases hj
    | struck i h0 => rw [h0] at hj; cases hj
    | released i st h0 h1 => have := hu rfl; omega
    | releasedOff i h0 h1 => have := hu rfl; omega
    | pardoned i => unfold Info.amnesty; split <;> exact ⟨hj, rfl⟩
    | _ => exact ⟨hj, rfl⟩

/-- C32, first half: a jailed validator stays in jail with the same term, and inactive, through any operations among which there is
no request of its own at or after the end of the term. -/
theorem C32_stays {s : State} {b : Addr} {i : Info} (hi : s.records.get b = some i) (hj : i.jailed = true) {l : List (Env × Op)}
    (hl : ∀ x ∈ l, x.2 = .unjail b → x.1.height < i.unjailAt) :
    ∃ j, (runs l s).records.get b = some j ∧ j.jailed = true ∧ j.unjailAt = i.unjailAt ∧ isValidator (runs l s) b = false := by
  have : ∃ j, (runs l s).records.get b = some j ∧ j.jailed = true ∧ j.unjailAt = i.unjailAt :=
    runs_keep (P := fun s => ∃ j, s.records.get b = some j ∧ j.jailed = true ∧ j.unjailAt = i.unjailAt)
      (fun x hx s ⟨j, h1, h2, h3⟩ => by
        obtain ⟨j', g1, g2, g3⟩ := jailed_step x.1 s x.2 h1 h2 (fun ho => h3 ▸ hl x hx ho)
        exact ⟨j', g1, g2, g3.trans h3⟩) ⟨i, hi, hj, rfl⟩
  obtain ⟨j, h1, h2, h3⟩ := this
  exact ⟨j, h1, h2, h3, by simp [isValidator, h1, Info.isActive, h2]⟩

/-- C32, an early request is refused. -/
theorem C32_early_refused {e : Env} {s : State} {b : Addr} {i : Info} (hi : s.records.get b = some i) (h : e.height < i.unjailAt) :
    unjail e s b = none := by
  simp only [unjail, hi, Option.bind_eq_bind, Option.bind_some]
  split
  · rfl
  · rfl

/-- C32, a request in time is granted, whether or not the validator still meets the criteria (the check just has to come to a
result). -/
theorem C32_release {e : Env} {s : State} {b : Addr} {i : Info} (hi : s.records.get b = some i) (hj : i.jailed = true)
    (h : i.unjailAt ≤ e.height) {q : Bool × Int} (hq : isQualified e s b = some q) {st : Int} (hst : sdkInt64? q.2 = some st) :
    ∃ t j, unjail e s b = some t ∧ t.records.get b = some j ∧ j.jailed = false ∧ (j.status = true ↔ q.1 = true ∧ i.status = true) := by
  simp only [unjail, hi, Option.bind_eq_bind, Option.bind_some, hj, Bool.not_true, Bool.false_eq_true, if_false, hq, hst]
  rw [if_neg (by omega)]
  cases hq1 : q.1 with
  | true => exact ⟨_, _, rfl, KV.get_set_self .., rfl, by simp [Info.updateScore]⟩
  | false => exact ⟨_, _, rfl, KV.get_set_self .., rfl, by simp⟩

/-- One step of the count below. -/
def counted (b : Addr) (jailed : Bool) (op : Op) (n : Nat) : Nat :=
  if jailed then 0 else if op = .stroke b then n + 1 else if op = .tick b then 0 else n

/-- The number of blocks an account has missed in a row while free: a missed block counts, a signed one starts over, and so does
time in jail. -/
def streak (b : Addr) : List (Env × Op) → State → Nat → Nat
  | [], _, n => n
  | x :: l, s, n => streak b l (x.2.run x.1 s)
      (counted b (((s.records.get b).map Info.jailed).getD false) x.2 n)

theorem missed_streak {b : Addr} : ∀ (l : List (Env × Op)) (s : State) (n : Nat) (i : Info), s.records.get b = some i →
    (i.missed = if i.jailed then 0 else (n : Int)) → ∀ j, (runs l s).records.get b = some j → (j.missed = if j.jailed then 0 else (streak b l s n : Int)) := by
  intro l
  induction l with
  | nil => intro s n i hi hm j hj; simp only [runs_nil] at hj; rw [hi] at hj; cases hj; exact hm
  | cons x l ih =>
    intro s n i hi hm j hj
    rw [runs_cons] at hj
    obtain ⟨k, hk, hc⟩ := run_change x.1 s x.2 hi
    have hcount : counted b (((s.records.get b).map Info.jailed).getD false) x.2 n = counted b i.jailed x.2 n := by rw [hi]; rfl
    refine ih _ _ k hk ?_ j hj
    rw [hcount]
    unfold counted
    rcases hc with hc | ⟨j', hc, hjc⟩
    · have hf := core_fields hc
      rw [hf.2.2.2.2.2.1, hf.2.2.1, hm]
      cases hij : i.jailed with
      | true => simp
      | false =>
        simp only [Bool.false_eq_true, if_false]
        -- the record did not change, so the operation was neither a counted stroke nor a tick
        by_cases h1 : x.2 = .stroke b
        · exfalso
          rw [h1] at hk
          have hu : markStroke x.1 s b = some _ := update_eq.2 ⟨i, hi, rfl⟩
          have hr := update_records hu b
          simp only [Op.run, hu, Option.getD_some] at hk
          rw [KV.get_set_self] at hk
          have hk := Option.some.inj hk
          rw [if_neg (by simp [hij])] at hk
          have hmk : k.missed = i.missed := hf.2.2.2.2.2.1
          have hjk : k.jailed = i.jailed := hf.2.2.1
          split at hk
          · have := (core_fields (core_leaveQueue s.queue _)).2.2.1.symm.trans (congrArg Info.jailed hk)
            rw [hjk, hij] at this; cases this
          · have := (core_fields (core_moveBack s.queue b _)).2.2.2.2.2.1.symm.trans (congrArg Info.missed hk)
            dsimp only at this
            omega
        · rw [if_neg h1]
          by_cases h2 : x.2 = .tick b
          · rw [if_pos h2]
            rw [h2] at hk
            have hu : markTick s b = some _ := update_eq.2 ⟨i, hi, rfl⟩
            simp only [Op.run, hu, Option.getD_some] at hk
            rw [KV.get_set_self] at hk
            have hk := Option.some.inj hk
            have hmk : k.missed = i.missed := hf.2.2.2.2.2.1
            have h0 : k.missed = 0 := by rw [← hk]; split <;> rfl
            rw [hij] at hm
            simp only [Bool.false_eq_true, if_false] at hm
            rw [← hm, ← hmk, h0]; rfl
          · rw [if_neg h2]
    · have hf := core_fields hjc
      rw [hf.2.2.2.2.2.1, hf.2.2.1]
      have hlit : ∀ {op : Op}, x.2 = op → op ≠ .stroke b → op ≠ .tick b → (i.missed = if i.jailed then 0 else
          ((if i.jailed then 0 else if x.2 = .stroke b then n + 1 else if x.2 = .tick b then 0 else n : Nat) : Int)) := by
        intro op ho h1 h2
        rw [ho, if_neg h1, if_neg h2, hm]
        cases i.jailed <;> simp
      generalize hop : x.2 = op at hc hlit
      cases hc with
      | tick i sc => cases i.jailed <;> simp
      | jailed i h0 h1 => simp [Info.jail]
      | struck i h0 h1 =>
        rw [h0] at hm
        simp only [Bool.false_eq_true, if_false] at hm
        simp only [Info.struck, h0, Bool.false_eq_true, if_false, if_true, hm]
        push_cast; rfl
      | released i st h0 h1 => rw [h0] at hm ⊢; simpa [Info.updateScore] using hm
      | releasedOff i h0 h1 => rw [h0] at hm ⊢; simpa using hm
      | pardoned i =>
        have := hlit rfl (by simp) (by simp)
        unfold Info.amnesty
        split <;> exact this
      | _ => exact hlit rfl (by simp) (by simp)

/-- C32, second half: jailing happens exactly when the number of consecutively missed blocks reaches the limit.  Take any account
that is free with no missed blocks counted and any operations after which it is free: the next missed block sends it to jail if and
only if together with it the blocks missed in a row reach the limit, the term being counted from that block; nothing else ever
sends anybody to jail. -/
theorem C32_jailing {s : State} {b : Addr} {i : Info} (hi : s.records.get b = some i) (h0 : i.jailed = false) (hm : i.missed = 0)
    (l : List (Env × Op)) (hfree : ¬ Jailed (runs l s) b) (e : Env) :
    (Jailed ((Op.stroke b).run e (runs l s)) b ↔ (runs l s).params.jailAfter ≤ streak b l s 0 + 1) ∧
    (∀ j, ((Op.stroke b).run e (runs l s)).records.get b = some j → j.jailed = true →
      j.unjailAt = e.height + (runs l s).params.unjailAfter) ∧
    (∀ op : Op, op ≠ .stroke b → ¬ Jailed (op.run e (runs l s)) b) := by
  obtain ⟨j, hj, -⟩ : Has (fun _ => True) (runs l s) b :=
    runs_keep (P := fun s => Has (fun _ => True) s b) (fun x _ s ⟨k, hk, _⟩ => by
      obtain ⟨k', hk', -⟩ := run_change x.1 s x.2 hk
      exact ⟨k', hk', trivial⟩) ⟨i, hi, trivial⟩
  have hjf : j.jailed = false := by
    cases hjj : j.jailed with
    | false => rfl
    | true => exact absurd ⟨j, hj, hjj⟩ hfree
  have hmj := missed_streak l s 0 i hi (by rw [h0, hm]; rfl) j hj
  rw [hjf] at hmj
  simp only [Bool.false_eq_true, if_false] at hmj
  have hrun : ((Op.stroke b).run e (runs l s)).records.get b = some (if j.missed + 1 ≥ ((runs l s).params.jailAfter : Int)
      then (leaveQueue (runs l s).queue (j.struck.jail (e.height + (runs l s).params.unjailAfter))).2
      else (moveBack (runs l s).queue b j.struck).2) := by
    show ((markStroke e (runs l s) b).getD _).records.get b = _
    have hu : markStroke e (runs l s) b = some _ := update_eq.2 ⟨j, hj, rfl⟩
    rw [hu]
    simp only [Option.getD_some, KV.get_set_self]
    rw [if_neg (by simp [hjf])]
    split <;> rfl
  by_cases hlim : (runs l s).params.jailAfter ≤ streak b l s 0 + 1
  · rw [if_pos (by show ((runs l s).params.jailAfter : Int) ≤ j.missed + 1; rw [hmj]; exact_mod_cast hlim)] at hrun
    have hf := core_fields (core_leaveQueue (runs l s).queue (j.struck.jail (e.height + (runs l s).params.unjailAfter)))
    refine ⟨iff_of_true ⟨_, hrun, hf.2.2.1⟩ hlim, ?_, ?_⟩
    · intro k hk _
      rw [hrun] at hk; cases hk
      exact hf.2.2.2.1
    · rintro op hop ⟨k, hk, hkj⟩
      obtain ⟨k', hk', hc⟩ := run_change e (runs l s) op hj
      rw [hk] at hk'; cases hk'
      rcases hc with hc | ⟨j', hc, hjc⟩
      · rw [(core_fields hc).2.2.1, hjf] at hkj; cases hkj
      · rw [(core_fields hjc).2.2.1] at hkj
        cases hc with
        | jailed i h1 h2 => exact hop rfl
        | struck i h1 h2 => exact hop rfl
        | released i st h1 h2 => rw [h1] at hjf; cases hjf
        | releasedOff i h1 h2 => rw [h1] at hjf; cases hjf
        | pardoned i =>
          unfold Info.amnesty at hkj
          split at hkj
          · rw [hjf] at hkj; cases hkj
          · change j.jailed = true at hkj; rw [hjf] at hkj; cases hkj
        | _ => change j.jailed = true at hkj; rw [hjf] at hkj; cases hkj
  · have hnl : ¬ j.missed + 1 ≥ ((runs l s).params.jailAfter : Int) := by rw [hmj]; omega
    rw [if_neg hnl] at hrun
    have hf := core_fields (core_moveBack (runs l s).queue b j.struck)
    have hnj : ∀ k, ((Op.stroke b).run e (runs l s)).records.get b = some k → k.jailed = false := by
      intro k hk
      rw [hrun] at hk; cases hk
      exact hf.2.2.1.trans hjf
    refine ⟨iff_of_false ?_ hlim, ?_, ?_⟩
    · rintro ⟨k, hk, hkj⟩
      rw [hnj k hk] at hkj; cases hkj
    · intro k hk hkj
      rw [hnj k hk] at hkj; cases hkj
    · rintro op hop ⟨k, hk, hkj⟩
      obtain ⟨k', hk', hc⟩ := run_change e (runs l s) op hj
      rw [hk] at hk'; cases hk'
      rcases hc with hc | ⟨j', hc, hjc⟩
      · rw [(core_fields hc).2.2.1, hjf] at hkj; cases hkj
      · rw [(core_fields hjc).2.2.1] at hkj
        cases hc with
        | jailed i h1 h2 => exact hop rfl
        | struck i h1 h2 => exact hop rfl
        | released i st h1 h2 => rw [h1] at hjf; cases hjf
        | releasedOff i h1 h2 => rw [h1] at hjf; cases hjf
        | pardoned i =>
          unfold Info.amnesty at hkj
          split at hkj
          · rw [hjf] at hkj; cases hkj
          · change j.jailed = true at hkj; rw [hjf] at hkj; cases hkj
        | _ => change j.jailed = true at hkj; rw [hjf] at hkj; cases hkj

/-- Limit 2: a missed block, a signed one, two missed ones: jail until ten blocks later; a request at height 13 is refused, one at
height 14 granted. -/
example : ((runs [(Ex.env 1, .switchOn 1 71), (Ex.env 2, .stroke 1), (Ex.env 3, .tick 1), (Ex.env 4, .stroke 1)] (Ex.start 3 0)).records.get 1).map
      (fun i => (i.jailed, i.missed)) = some (false, 1) ∧
    ((runs [(Ex.env 1, .switchOn 1 71), (Ex.env 2, .stroke 1), (Ex.env 3, .tick 1), (Ex.env 4, .stroke 1), (Ex.env 4, .stroke 1),
      (Ex.env 13, .unjail 1)] (Ex.start 3 0)).records.get 1).map (fun i => (i.jailed, i.unjailAt)) = some (true, 14) ∧
    ((runs [(Ex.env 1, .switchOn 1 71), (Ex.env 2, .stroke 1), (Ex.env 3, .tick 1), (Ex.env 4, .stroke 1), (Ex.env 4, .stroke 1),
      (Ex.env 14, .unjail 1)] (Ex.start 3 0)).records.get 1).map (fun i => (i.jailed, i.isActive)) = some (false, true) := by decide +kernel

end Verif.Noding
