import Verif.Noding.Rules

/-! Property C69: exactly who may run a validator, what switching on writes, and who counts as an active validator. -/
namespace Verif.Noding
open Verif.Util

/-- The account is on the staff list. -/
def OnStaff (s : State) (a : Addr) : Prop := ∃ i, s.records.get a = some i ∧ i.staff = true

/-- The rule in words: status, own delegation and delegation of the network reach the minimums; the sums fit an unsigned 64-bit
number. -/
structure Reaches (e : Env) (s : State) (a : Addr) (status : Nat) (total : Int) : Prop where
  statusOk : s.params.minStatus ≤ status
  selfOk : (s.params.minSelf : Int) ≤ e.self a
  totalOk : (s.params.minTotal : Int) ≤ total
  selfFits : 0 ≤ e.self a ∧ e.self a ≤ 18446744073709551615
  totalFits : 0 ≤ total ∧ total ≤ 18446744073709551615

/-- Whoever is on the staff list or meets the rule; status and stake must be known. -/
def Qualifies (e : Env) (s : State) (a : Addr) (total : Int) : Prop :=
  e.stake a = some total ∧ ∃ status, e.status a = some status ∧ (OnStaff s a ∨ Reaches e s a status total)

theorem uint64?_some {x : Int} {n : Nat} : uint64? x = some n ↔ (0 ≤ x ∧ x ≤ 18446744073709551615) ∧ (n : Int) = x := by
  unfold uint64?
  rw [show (2 : Int) ^ 64 = 18446744073709551616 from rfl]
  constructor
  · intro h
    split at h
    · simp only [Option.some.injEq] at h
      omega
    · cases h
  · rintro ⟨h, hn⟩
    rw [if_pos (by omega)]
    simp only [Option.some.injEq]
    omega

theorem staff_iff {s : State} {a : Addr} : ((s.records.get a).map Info.staff).getD false = true ↔ OnStaff s a := by
  unfold OnStaff
  cases s.records.get a <;> simp

/-- C69, the check: an account is found qualified, with the stake reported, exactly when it is on the staff list or reaches all
three minimums. -/
theorem C69_qualified {e : Env} {s : State} {a : Addr} {total : Int} :
    isQualified e s a = some (true, total) ↔ Qualifies e s a total := by
  unfold isQualified Qualifies
  cases hstake : e.stake a with
  | none => simp
  | some x =>
    cases hst : e.status a with
    | none => simp
    | some st =>
      simp only [Option.bind_eq_bind, Option.bind_some, Option.some.injEq]
      by_cases hf : ((s.records.get a).map Info.staff).getD false = true
      · rw [if_pos hf]
        simp [staff_iff.1 hf]
      · rw [if_neg hf]
        have hn : ¬ OnStaff s a := fun h => hf (staff_iff.2 h)
        by_cases h1 : st < s.params.minStatus
        · rw [if_pos h1]
          simp only [Option.some.injEq, Prod.mk.injEq, Bool.false_eq_true, false_and, false_iff]
          rintro ⟨-, w, rfl, h | h⟩
          · exact hn h
          · have := h.statusOk; omega
        · rw [if_neg h1]
          cases hu : uint64? (e.self a) with
          | none =>
            simp only [Option.bind_none, reduceCtorEq, false_iff]
            rintro ⟨-, w, rfl, h | h⟩
            · exact hn h
            · have := (uint64?_some (x := e.self a) (n := (e.self a).toNat)).2 ⟨h.selfFits, by have := h.selfFits; omega⟩
              rw [hu] at this; cases this
          | some n =>
            obtain ⟨hr, hn'⟩ := uint64?_some.1 hu
            simp only [Option.bind_some]
            by_cases h2 : n < s.params.minSelf
            · rw [if_pos h2]
              simp only [Option.some.injEq, Prod.mk.injEq, Bool.false_eq_true, false_and, false_iff]
              rintro ⟨-, w, rfl, h | h⟩
              · exact hn h
              · have := h.selfOk; omega
            · rw [if_neg h2]
              cases hv : uint64? x with
              | none =>
                simp only [Option.bind_none, reduceCtorEq, false_iff]
                rintro ⟨rfl, w, rfl, h | h⟩
                · exact hn h
                · have := (uint64?_some (x := x) (n := x.toNat)).2 ⟨h.totalFits, by have := h.totalFits; omega⟩
                  rw [hv] at this; cases this
              | some m =>
                obtain ⟨hr2, hm⟩ := uint64?_some.1 hv
                simp only [Option.bind_some]
                by_cases h3 : m < s.params.minTotal
                · rw [if_pos h3]
                  simp only [Option.some.injEq, Prod.mk.injEq, Bool.false_eq_true, false_and, false_iff]
                  rintro ⟨rfl, w, rfl, h | h⟩
                  · exact hn h
                  · have := h.totalOk; omega
                · rw [if_neg h3]
                  simp only [Option.some.injEq, Prod.mk.injEq, true_and]
                  constructor
                  · rintro rfl
                    exact ⟨rfl, st, rfl, Or.inr ⟨by omega, by omega, by omega, hr, hr2⟩⟩
                  · rintro ⟨h, -⟩; exact h

/-- Somebody who is switched on and neither jailed nor banned uses the key, as far as the index of keys tells. -/
def KeyBusy (s : State) (k : PubKey) : Prop :=
  ∃ b i, s.operators.get k = some b ∧ s.records.get b = some i ∧ i.status = true ∧ i.jailed = false ∧ i.banned = false ∧ i.pubKey = k

/-- The index of keys points to records, and whoever is switched on has a key (kept by every execution, see `indexed_runs`). -/
def Indexed (s : State) : Prop :=
  (∀ k b, s.operators.get k = some b → ∃ i, s.records.get b = some i) ∧
  ∀ a i, s.records.get a = some i → i.status = true → i.pubKey ≠ 0

theorem byKey_free {s : State} (hx : Indexed s) {k : PubKey} :
    (∃ o, validatorByKey s k = some o ∧ (o.map Prod.snd).getD false = false) ↔ ¬ KeyBusy s k := by
  unfold validatorByKey KeyBusy
  cases ho : s.operators.get k with
  | none => simp
  | some b =>
    obtain ⟨i, hi⟩ := hx.1 k b ho
    simp only [hi]
    by_cases ha : i.isActive = true
    · rw [if_pos ha]
      have ha' := ha
      simp only [Info.isActive, Bool.and_eq_true, Bool.not_eq_true'] at ha'
      rw [if_neg (hx.2 b i hi ha'.1.1)]
      constructor
      · rintro ⟨o, h, h'⟩ ⟨b', i', hb, hi', -, -, -, hk⟩
        cases hb; rw [hi] at hi'; cases hi'
        cases h
        simp [hk] at h'
      · intro h
        refine ⟨_, rfl, ?_⟩
        simp only [Option.map_some, Option.getD_some, beq_eq_false_iff_ne, ne_eq]
        intro hk
        exact h ⟨b, i, rfl, hi, ha'.1.1, ha'.1.2, ha'.2, hk⟩
    · rw [if_neg ha]
      simp only [Option.some.injEq, exists_eq_left', Option.map_some, Option.getD_some, true_iff]
      rintro ⟨b', i', hb, hi', h1, h2, h3, -⟩
      cases hb; rw [hi] at hi'; cases hi'
      exact ha (by simp [Info.isActive, h1, h2, h3])

/-- The record of an account that has none yet. -/
def blank : Info := {}

/-- C69, switching on: it succeeds exactly for an account that is not banned and not yet on, with a real key nobody active uses,
that qualifies with a stake that fits a signed 64-bit number. -/
theorem C69_switch_on {e : Env} {s : State} (hx : Indexed s) {a : Addr} {k : PubKey} :
    (∃ t, switchOn e s a k = some t) ↔
      k ≠ 0 ∧ (∀ i, s.records.get a = some i → i.banned = false ∧ i.status = false) ∧ ¬ KeyBusy s k ∧
        ∃ total, Qualifies e s a total ∧ -9223372036854775808 ≤ total ∧ total ≤ 9223372036854775807 := by
  constructor
  · rintro ⟨t, h⟩
    obtain ⟨h1, h2, h3, ⟨q, x⟩, stake, hq, hq1, hs, -⟩ := switchOn_some h
    refine ⟨h1, h2, (byKey_free hx).1 h3, x, ?_, ?_⟩
    · cases hq1; exact C69_qualified.1 hq
    · unfold sdkInt64? at hs
      split at hs
      · rename_i hb
        simp only [isInt64, decide_eq_true_eq] at hb
        omega
      · cases hs
  · rintro ⟨h1, h2, h3, x, hq, hr⟩
    obtain ⟨o, ho, ho'⟩ := (byKey_free hx).2 h3
    have hq' := C69_qualified.2 hq
    have hs : sdkInt64? x = some x := by
      unfold sdkInt64?
      rw [if_pos]
      simp only [isInt64, decide_eq_true_eq]
      omega
    refine ⟨register e s a k x, ?_⟩
    unfold switchOn
    have hb : ((s.records.get a).map Info.banned).getD false = false := by
      cases hg : s.records.get a with
      | none => rfl
      | some i => exact (h2 i hg).1
    have hst : ((s.records.get a).map Info.status).getD false = false := by
      cases hg : s.records.get a with
      | none => rfl
      | some i => exact (h2 i hg).2
    rw [if_neg h1, if_neg (by simp [hb]), if_neg (by simp [hst])]
    simp [ho, ho', hq', hs]

/-- C69, what switching on writes: the record of the account is on, has the key and a score made of the stake, the strokes and the
blocks signed in a row; everything else in it stays (a new record has zeros); the key now leads to the account; nothing else
changes. -/
theorem C69_switched_on {e : Env} {s t : State} {a : Addr} {k : PubKey} (h : switchOn e s a k = some t) :
    ∃ total, e.stake a = some total ∧
      (∀ b, t.records.get b = if b = a then
        some { (s.records.get a).getD blank with
          status := true, pubKey := k
          score := e.log (max 1 total) - ((s.records.get a).getD blank).strokes + ((s.records.get a).getD blank).okBlocks.tdiv 100 }
        else s.records.get b) ∧
      (∀ k', t.operators.get k' = if k' = k then some a else s.operators.get k') ∧
      t.queue = s.queue ∧ t.proposers = s.proposers ∧ t.params = s.params := by
  obtain ⟨h1, h2, h3, ⟨q, x⟩, stake, hq, hq1, hs, rfl⟩ := switchOn_some h
  cases hq1
  have hst : stake = x := by
    unfold sdkInt64? at hs
    split at hs
    · simpa using hs.symm
    · cases hs
  subst hst
  refine ⟨stake, (C69_qualified.1 hq).1, ?_, ?_, rfl, rfl, rfl⟩
  · intro b
    rw [register_get]
    have hmax : (if stake < 1 then (1 : Int) else stake) = max 1 stake := by
      split <;> omega
    by_cases hb : b = a
    · rw [if_pos hb, if_pos hb]
      cases hg : s.records.get a with
      | none => simp only [registered, newInfo, Info.updateScore, hmax]; rfl
      | some i => simp only [registered, Info.updateScore, hmax]; rfl
    · rw [if_neg hb, if_neg hb]
  · intro k'
    simp only [register, KV.get_set]

/-- C69, active validators: an account counts as one exactly when its record is on, not jailed, not banned, and six jail terms
have passed since its last release date. -/
theorem C69_active {e : Env} {s : State} {a : Addr} :
    isActiveValidator e s a = true ↔ ∃ i, s.records.get a = some i ∧ i.status = true ∧ i.jailed = false ∧ i.banned = false ∧
      i.unjailAt + 6 * (s.params.unjailAfter : Int) ≤ e.height := by
  unfold isActiveValidator
  cases hg : s.records.get a with
  | none => simp
  | some i =>
    simp only [Info.isActive, Bool.and_eq_true, Bool.not_eq_true', decide_eq_false_iff_not, Option.some.injEq, exists_eq_left']
    constructor
    · rintro ⟨⟨⟨h1, h2⟩, h3⟩, h4⟩; exact ⟨h1, h2, h3, by omega⟩
    · rintro ⟨h1, h2, h3, h4⟩; exact ⟨⟨⟨h1, h2⟩, h3⟩, by omega⟩

/-- Only the first pass of the selection touches the index of keys. -/
theorem gather_scan {e : Env} {s t : State} {u : List Upd} (h : gather e s = some (t, u)) :
    ∃ x, foldOpt scanStep (s, []) s.records.entries = some x ∧ t.operators = x.1.operators := by
  simp only [gather, Option.bind_eq_bind, Option.bind_eq_some_iff, Option.some.injEq, Prod.mk.injEq] at h
  obtain ⟨x, hx, w1, hw1, w2, hw2, rfl, -⟩ := h
  refine ⟨x, hx, ?_⟩
  have h1 : w1.s.operators = x.1.operators := by
    refine foldOpt_keep (P := fun w : Work => w.s.operators = x.1.operators) ?_ rfl hw1
    intro y r z _ hy hyz
    unfold topStep at hyz
    dsimp only at hyz
    split at hyz
    · cases hyz
    · simp only [Option.bind_eq_bind, Option.bind_eq_some_iff] at hyz
      obtain ⟨g, -, hyz⟩ := hyz
      split at hyz
      · simp only [Option.bind_eq_some_iff, Option.some.injEq] at hyz
        obtain ⟨s', hs', rfl⟩ := hyz
        obtain ⟨j, -, rfl⟩ := update_eq.1 hs'
        exact hy
      · cases hyz; exact hy
  refine foldOpt_keep (P := fun w : Work => w.s.operators = x.1.operators) ?_ h1 hw2
  intro y r z _ hy hyz
  unfold restStep at hyz
  dsimp only at hyz
  split at hyz
  · simp only [Option.bind_eq_bind, Option.bind_eq_some_iff] at hyz
    obtain ⟨g, -, hyz⟩ := hyz
    split at hyz
    · simp only [Option.bind_eq_some_iff, Option.some.injEq] at hyz
      obtain ⟨k', -, s', hs', rfl⟩ := hyz
      obtain ⟨j, -, rfl⟩ := update_eq.1 hs'
      exact hy
    · cases hyz; exact hy
  · simp only [Option.bind_eq_bind, Option.bind_eq_some_iff] at hyz
    obtain ⟨g, -, hyz⟩ := hyz
    split at hyz
    · simp only [Option.bind_eq_some_iff, Option.some.injEq] at hyz
      obtain ⟨s', hs', rfl⟩ := hyz
      obtain ⟨j, -, rfl⟩ := update_eq.1 hs'
      exact hy
    · cases hyz; exact hy

/-- The selection leaves the index of keys alone, except that it enters the keys of active accounts. -/
theorem gather_operators {e : Env} {s t : State} {u : List Upd} (h : gather e s = some (t, u)) {k : PubKey} {b : Addr}
    (hb : t.operators.get k = some b) :
    s.operators.get k = some b ∨ ∃ i, s.records.get b = some i ∧ i.isActive = true ∧ i.pubKey = k := by
  obtain ⟨x, hx, ho⟩ := gather_scan h
  rw [ho] at hb
  revert k b hb
  suffices h0 : ∀ k b, x.1.operators.get k = some b → s.operators.get k = some b ∨ ∃ i, s.records.get b = some i ∧ i.isActive = true ∧ i.pubKey = k
    from fun {k b} hb => h0 k b hb
  refine foldOpt_keep (P := fun y : State × List Upd => ∀ k b, y.1.operators.get k = some b →
    s.operators.get k = some b ∨ ∃ i, s.records.get b = some i ∧ i.isActive = true ∧ i.pubKey = k) ?_ (fun k b h => Or.inl h) hx
  intro y r z hr hy hyz k b hkb
  unfold scanStep at hyz
  split at hyz
  · rename_i hact
    simp only [Option.bind_eq_bind, Option.bind_eq_some_iff, Option.some.injEq] at hyz
    obtain ⟨k', hk', rfl⟩ := hyz
    simp only [KV.get_set] at hkb
    split at hkb
    · rename_i hkk
      cases hkb; exact Or.inr ⟨r.2, KV.mem_entries.1 hr, hact, by rw [hkk, (key?_some hk').2]⟩
    · exact hy k b hkb
  · split at hyz
    · simp only [Option.bind_eq_bind, Option.bind_eq_some_iff, Option.some.injEq] at hyz
      obtain ⟨k', -, s', hs', rfl⟩ := hyz
      obtain ⟨j, -, rfl⟩ := update_eq.1 hs'
      exact hy k b hkb
    · cases hyz; exact hy k b hkb

/-- A key in the index stays in the index. -/
theorem gather_operators_keep {e : Env} {s t : State} {u : List Upd} (h : gather e s = some (t, u)) {k : PubKey} {b : Addr}
    (hb : s.operators.get k = some b) : ∃ b', t.operators.get k = some b' := by
  obtain ⟨x, hx, ho⟩ := gather_scan h
  rw [ho]
  refine foldOpt_keep (P := fun y : State × List Upd => ∃ b', y.1.operators.get k = some b') ?_ ⟨b, hb⟩ hx
  rintro y r z - ⟨b', hy⟩ hyz
  unfold scanStep at hyz
  split at hyz
  · simp only [Option.bind_eq_bind, Option.bind_eq_some_iff, Option.some.injEq] at hyz
    obtain ⟨k', -, rfl⟩ := hyz
    simp only [KV.get_set]
    split
    · exact ⟨_, rfl⟩
    · exact ⟨b', hy⟩
  · split at hyz
    · simp only [Option.bind_eq_bind, Option.bind_eq_some_iff, Option.some.injEq] at hyz
      obtain ⟨k', -, s', hs', rfl⟩ := hyz
      obtain ⟨j, -, rfl⟩ := update_eq.1 hs'
      exact ⟨b', hy⟩
    · cases hyz; exact ⟨b', hy⟩

/-- No operation but switching on and the selection touches the index of keys. -/
theorem run_operators (e : Env) (s : State) (op : Op) {k : PubKey} {b : Addr} (hb : (op.run e s).operators.get k = some b) :
    s.operators.get k = some b ∨ ∃ i, (op.run e s).records.get b = some i := by
  have upd : ∀ {s' : State} {a : Addr} {f : KV Nat Addr → Info → KV Nat Addr × Info}, s'.operators = s.operators →
      ((update s' a f).getD s).operators = s.operators := by
    intro s' a f h
    cases hu : update s' a f with
    | none => rfl
    | some t => obtain ⟨j, -, rfl⟩ := update_eq.1 hu; exact h
  have stat : ∀ {s1 t : State} {a : Addr}, onStatusUpdate e s1 a = some t → t.operators = s1.operators := by
    intro s1 t a h
    rcases onStatusUpdate_some h with rfl | ⟨-, -, h⟩
    · rfl
    · obtain ⟨j, -, rfl⟩ := update_eq.1 h; rfl
  have stk : ∀ {s1 t : State} {a : Addr}, onStakeChanged e s1 a = some t → t.operators = s1.operators := by
    intro s1 t a h
    rcases onStakeChanged_some h with rfl | ⟨j, q, st, -, -, -, ⟨-, -, rfl⟩ | ⟨-, rfl⟩⟩ <;> rfl
  cases op with
  | switchOn a k' =>
    change ((switchOn e s a k').getD s).operators.get k = some b at hb
    change _ ∨ ∃ i, ((switchOn e s a k').getD s).records.get b = some i
    cases h : switchOn e s a k' with
    | none => rw [h] at hb; exact Or.inl hb
    | some t =>
      rw [h] at hb
      obtain ⟨_, -, hr, ho, -⟩ := C69_switched_on h
      simp only [Option.getD_some] at hb ⊢
      rw [ho] at hb
      split at hb
      · cases hb
        right
        rw [hr, if_pos rfl]
        exact ⟨_, rfl⟩
      · exact Or.inl hb
  | gather =>
    change ((((gather e s).map Prod.fst).getD s)).operators.get k = some b at hb
    change _ ∨ ∃ i, (((gather e s).map Prod.fst).getD s).records.get b = some i
    cases h : gather e s with
    | none => rw [h] at hb; exact Or.inl hb
    | some x =>
      obtain ⟨t, u⟩ := x
      rw [h] at hb
      rcases gather_operators h hb with h' | ⟨i, hi, -, -⟩
      · exact Or.inl h'
      · obtain ⟨j, hj, -⟩ := run_change e s .gather hi
        right
        change (((gather e s).map Prod.fst).getD s).records.get b = some j at hj
        rw [h] at hj
        exact ⟨j, hj⟩
  | switchOff a => left; rwa [← show ((Op.switchOff a).run e s).operators = s.operators from upd rfl]
  | proposed a => left; rwa [← show ((Op.proposed a).run e s).operators = s.operators from upd rfl]
  | tick a => left; rwa [← show ((Op.tick a).run e s).operators = s.operators from upd rfl]
  | stroke a => left; rwa [← show ((Op.stroke a).run e s).operators = s.operators from upd rfl]
  | byzantine a => left; rwa [← show ((Op.byzantine a).run e s).operators = s.operators from upd rfl]
  | unjail a =>
    left
    change ((unjail e s a).getD s).operators.get k = some b at hb
    cases h : unjail e s a with
    | none => rw [h] at hb; exact hb
    | some t =>
      rw [h] at hb
      obtain ⟨i, q, -, -, -, -, ⟨-, st, -, rfl⟩ | ⟨-, rfl⟩⟩ := unjail_some h <;> exact hb
  | statusUpdate a =>
    left
    change ((onStatusUpdate e s a).getD s).operators.get k = some b at hb
    cases h : onStatusUpdate e s a with
    | none => rw [h] at hb; exact hb
    | some t => rw [h] at hb; rw [← stat h]; exact hb
  | stakeChanged a =>
    left
    change ((onStakeChanged e s a).getD s).operators.get k = some b at hb
    cases h : onStakeChanged e s a with
    | none => rw [h] at hb; exact hb
    | some t => rw [h] at hb; rw [← stk h]; exact hb
  | addStaff a =>
    left
    change (addToStaff s a).operators.get k = some b at hb
    unfold addToStaff at hb
    split at hb <;> exact hb
  | removeStaff a =>
    left
    change (removeFromStaff e s a).operators.get k = some b at hb
    rcases removeFromStaff_cases e s a with h | ⟨i, -, -, s1, rfl, h | ⟨-, s2, h2, h | h⟩⟩
    · rw [h] at hb; exact hb
    · rw [h] at hb; exact hb
    · rw [h, stat h2] at hb; exact hb
    · rw [stk h, stat h2] at hb; exact hb
  | amnesty => left; exact hb
  | setParams p =>
    left
    change ((setParams s p).getD s).operators.get k = some b at hb
    unfold setParams at hb
    split at hb <;> exact hb

/-- `Indexed` holds throughout every execution from a store whose index of keys is empty. -/
theorem indexed_runs {s : State} (hs : Start s) (h0 : s.operators = KV.empty) {l : List (Env × Op)} (hsort : ∀ x ∈ l, SortOk x.1.sort) :
    Indexed (runs l s) := by
  refine ⟨?_, (hs.good.runs hsort).on⟩
  have := runs_keep (P := fun s => ∀ k b, s.operators.get k = some b → ∃ i, s.records.get b = some i) (l := l) (s := s) ?_ ?_
  · exact this
  · intro x _ s h k b hb
    rcases run_operators x.1 s x.2 hb with h' | h'
    · obtain ⟨i, hi⟩ := h k b h'
      obtain ⟨j, hj, -⟩ := run_change x.1 s x.2 hi
      exact ⟨j, hj⟩
    · exact h'
  · intro k b hb
    rw [h0, KV.get_empty] at hb; cases hb

/-- A fresh account with a key nobody uses switches on; a second one with the same key cannot, nor the same account twice, nor an
account with too little of its own. -/
example : ((switchOn (Ex.env 1) (Ex.start 3 0) 1 71).map fun t => (t.records.get 1, t.operators.get 71)) =
      some (some { status := true, pubKey := 71, score := 5 }, some 1) ∧
    ((switchOn (Ex.env 1) (Ex.start 3 0) 1 71).bind fun t => switchOn (Ex.env 1) t 2 71).isNone = true ∧
    ((switchOn (Ex.env 1) (Ex.start 3 0) 1 71).bind fun t => switchOn (Ex.env 1) t 1 72).isNone = true ∧
    (switchOn (Ex.env 1 5000 5 99) (Ex.start 3 0) 1 71).isNone = true ∧
    (switchOn (Ex.env 1 5000 5 99) (addToStaff (Ex.start 3 0) 1) 1 71).isSome = true := by decide +kernel

/-- Sixty blocks (six terms of ten) after the start a validator counts as active, not before. -/
example : (isActiveValidator (Ex.env 59) (runs [(Ex.env 1, .switchOn 1 71)] (Ex.start 3 0)) 1,
    isActiveValidator (Ex.env 60) (runs [(Ex.env 1, .switchOn 1 71)] (Ex.start 3 0)) 1,
    isActiveValidator (Ex.env 60) (runs [(Ex.env 1, .switchOn 1 71)] (Ex.start 3 0)) 2) = (false, true, false) := by decide +kernel

end Verif.Noding
