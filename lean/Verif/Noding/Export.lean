import Verif.Noding.Accept

/-! Property C72: exporting the validators to a genesis file and starting again from it. -/
namespace Verif.Noding
open Verif.Util

/-! ### The model of the export -/

/-- /repo/x/noding/keeper/keeper.go:891-901, for one account: heights of the blocks it proposed, from the index. -/
def blocksOf (m : KV Int Addr) (a : Addr) : List Int := (m.entries.filter fun x => x.2 == a).map Prod.fst

/-- /repo/x/noding/types/genesis.go:36-53 `GenesisValidatorFromD` -/
def GenesisValidator.ofInfo (a : Addr) (i : Info) (blocks : List Int) : GenesisValidator :=
  { account := a, pubKey := i.pubKey, strokes := i.strokes, okBlocks := i.okBlocks, missed := i.missed, jailed := i.jailed,
    unjailAt := i.unjailAt, infractions := i.infractions, banned := i.banned, staff := i.staff, proposed := i.proposed,
    jailCount := i.jailCount, switchedOn := i.jailed && i.status, proposedBlocks := blocks }

/-- /repo/x/noding/keeper/keeper.go:524-544 -/
def exportActive (s : State) : List GenesisValidator :=
  (s.records.entries.filter fun r => r.2.isActive).map fun r => .ofInfo r.1 r.2 (blocksOf s.proposers r.1)

/-- /repo/x/noding/keeper/keeper.go:567-587 -/
def exportRest (s : State) : List GenesisValidator :=
  (s.records.entries.filter fun r => !r.2.isActive).map fun r => .ofInfo r.1 r.2 (blocksOf s.proposers r.1)

/-! ### What executions keep -/

/-- The counters of a record make sense, and a banned account is off. -/
structure Tidy (i : Info) : Prop where
  proposed : 0 ≤ i.proposed
  jailCount : 0 ≤ i.jailCount
  okBlocks : 0 ≤ i.okBlocks
  missed : 0 ≤ i.missed
  one : i.okBlocks = 0 ∨ i.missed = 0
  banned : i.banned = true → i.status = false

theorem tidy_core {i j : Info} (h : i.core = j.core) (hj : Tidy j) : Tidy i := by
  obtain ⟨h1, h2, h3, h4, h5, h6⟩ := hj
  simp only [Info.core, Info.mk.injEq] at h
  obtain ⟨e1, e2, e3, e4, e5, e6, e7, e8, e9, e10, e11, e12, e13, e14, e15, e16⟩ := h
  exact ⟨by rw [e14]; exact h1, by rw [e15]; exact h2, by rw [e7]; exact h3, by rw [e8]; exact h4, by rw [e7, e8]; exact h5,
    by rw [e12, e1]; exact h6⟩

theorem tidy_change {e : Env} {s : State} {b : Addr} {op : Op} {i j : Info} (hi : Tidy i) (h : Change e s b op i j) : Tidy j := by
  obtain ⟨h1, h2, h3, h4, h5, h6⟩ := hi
  cases h with
  | on i k stake hb hs => exact ⟨h1, h2, h3, h4, h5, fun h => by rw [show i.banned = true from h] at hb; cases hb⟩
  | off => exact ⟨h1, h2, h3, h4, h5, fun _ => rfl⟩
  | demoted => exact ⟨h1, h2, h3, h4, h5, fun _ => rfl⟩
  | rescored i st => exact ⟨h1, h2, h3, h4, h5, h6⟩
  | proposed => exact ⟨by dsimp only; omega, h2, h3, h4, h5, h6⟩
  | tick i sc => exact ⟨h1, h2, by dsimp only; omega, le_refl _, Or.inr rfl, h6⟩
  | jailed i hj hm => exact ⟨h1, by simp only [Info.jail, Info.struck]; omega, le_refl _, le_refl _, Or.inr rfl, h6⟩
  | struck i hj hm => exact ⟨h1, h2, le_refl _, by simp only [Info.struck]; omega, Or.inl rfl, h6⟩
  | banned => exact ⟨h1, h2, h3, h4, h5, fun _ => rfl⟩
  | warned => exact ⟨h1, h2, h3, h4, h5, h6⟩
  | released i st hj hh => exact ⟨h1, h2, h3, h4, h5, h6⟩
  | releasedOff => exact ⟨h1, h2, h3, h4, h5, fun _ => rfl⟩
  | staffed => exact ⟨h1, h2, h3, h4, h5, h6⟩
  | unstaffed i st sc h =>
    refine ⟨h1, h2, h3, h4, h5, fun hb => ?_⟩
    have := h6 hb
    cases st with
    | false => rfl
    | true => rw [h rfl] at this; cases this
  | pardoned =>
    unfold Info.amnesty
    split
    · exact ⟨h1, h2, h3, h4, h5, h6⟩
    · exact ⟨h1, le_refl _, h3, h4, h5, h6⟩

/-- A record that was not there before is that of a new validator or of a new staff member. -/
theorem run_new {e : Env} {s : State} {op : Op} {b : Addr} {j : Info} (hn : s.records.get b = none)
    (hj : (op.run e s).records.get b = some j) : (∃ k st, j = newInfo e.log k st) ∨ j = { staff := true } := by
  have upd : ∀ {s' : State} {a : Addr} {f : KV Nat Addr → Info → KV Nat Addr × Info}, s'.records = s.records →
      ((update s' a f).getD s).records.get b = none := by
    intro s' a f h
    cases hu : update s' a f with
    | none => exact hn
    | some t =>
      have := update_records hu b
      rw [h] at this
      simp only [Option.getD_some]
      by_cases hb : b = a
      · subst hb; rw [this, if_pos rfl, hn]; rfl
      · rw [this, if_neg hb, hn]
  have upd' : ∀ {s' t : State} {a : Addr} {f : KV Nat Addr → Info → KV Nat Addr × Info}, s'.records.get b = none →
      update s' a f = some t → t.records.get b = none := by
    intro s' t a f h hu
    have := update_records hu b
    by_cases hb : b = a
    · subst hb; rw [this, if_pos rfl, h]; rfl
    · rw [this, if_neg hb, h]
  have stat : ∀ {s1 t : State} {a : Addr}, s1.records.get b = none → onStatusUpdate e s1 a = some t → t.records.get b = none := by
    intro s1 t a h h'
    rcases onStatusUpdate_some h' with rfl | ⟨-, -, h'⟩
    · exact h
    · exact upd' h h'
  have put : ∀ {s1 : State} {a : Addr} {i i' : Info}, s1.records.get b = none → s1.records.get a = some i →
      (s1.records.set a i').get b = none := by
    intro s1 a i i' h hi
    rw [KV.get_set]
    split
    · rename_i hb; subst hb; rw [h] at hi; cases hi
    · exact h
  have stk : ∀ {s1 t : State} {a : Addr}, s1.records.get b = none → onStakeChanged e s1 a = some t → t.records.get b = none := by
    intro s1 t a h h'
    rcases onStakeChanged_some h' with rfl | ⟨i, q, st, hi, -, -, ⟨-, -, rfl⟩ | ⟨-, rfl⟩⟩
    · exact h
    · exact h
    · exact put h hi
  have no : (op.run e s).records.get b = none → (∃ k st, j = newInfo e.log k st) ∨ j = { staff := true } := by
    intro h; rw [h] at hj; cases hj
  cases op with
  | switchOn a k =>
    change ((switchOn e s a k).getD s).records.get b = some j at hj
    cases h : switchOn e s a k with
    | none => rw [h] at hj; rw [show s.records.get b = some j from hj] at hn; cases hn
    | some t =>
      rw [h] at hj
      obtain ⟨-, -, -, q, st, -, -, -, rfl⟩ := switchOn_some h
      simp only [Option.getD_some, register_get] at hj
      split at hj
      · rename_i hb; subst hb
        rw [hn] at hj
        cases hj
        exact Or.inl ⟨k, st, rfl⟩
      · rw [hn] at hj; cases hj
  | addStaff a =>
    change (addToStaff s a).records.get b = some j at hj
    unfold addToStaff at hj
    split at hj
    · rename_i i hi
      rw [put hn hi] at hj; cases hj
    · simp only [KV.get_set] at hj
      split at hj
      · cases hj; exact Or.inr rfl
      · rw [hn] at hj; cases hj
  | switchOff a => exact no (upd rfl)
  | proposed a => exact no (upd rfl)
  | tick a => exact no (upd rfl)
  | stroke a => exact no (upd rfl)
  | byzantine a => exact no (upd rfl)
  | unjail a =>
    refine no ?_
    show ((unjail e s a).getD s).records.get b = none
    cases h : unjail e s a with
    | none => exact hn
    | some t =>
      obtain ⟨i, q, hi, -, -, -, ⟨-, st, -, rfl⟩ | ⟨-, rfl⟩⟩ := unjail_some h <;> exact put hn hi
  | statusUpdate a =>
    refine no ?_
    show ((onStatusUpdate e s a).getD s).records.get b = none
    cases h : onStatusUpdate e s a with
    | none => exact hn
    | some t => exact stat hn h
  | stakeChanged a =>
    refine no ?_
    show ((onStakeChanged e s a).getD s).records.get b = none
    cases h : onStakeChanged e s a with
    | none => exact hn
    | some t => exact stk hn h
  | removeStaff a =>
    refine no ?_
    show (removeFromStaff e s a).records.get b = none
    rcases removeFromStaff_cases e s a with h | ⟨i, hi, -, s1, h1, h⟩
    · rw [h]; exact hn
    · have hs1 : s1.records.get b = none := by rw [h1]; exact put hn hi
      rcases h with h | ⟨-, s2, h2, h | h⟩
      · rw [h]; exact hs1
      · rw [h]; exact stat hs1 h2
      · exact stk (stat hs1 h2) h
  | amnesty =>
    refine no ?_
    show (generalAmnesty s).records.get b = none
    rw [amnesty_get, hn]; rfl
  | setParams p =>
    refine no ?_
    show ((setParams s p).getD s).records.get b = none
    unfold setParams
    split <;> exact hn
  | gather =>
    refine no ?_
    show (((gather e s).map Prod.fst).getD s).records.get b = none
    cases h : gather e s with
    | none => exact hn
    | some x =>
      obtain ⟨t, u⟩ := x
      have := gather_core h b
      simp only [field, hn, Option.map_none, Option.map_eq_none_iff] at this
      exact this

theorem tidy_runs {s : State} (h0 : ∀ a i, s.records.get a = some i → Tidy i) (l : List (Env × Op)) :
    ∀ a i, (runs l s).records.get a = some i → Tidy i := by
  refine runs_keep (P := fun s => ∀ a i, s.records.get a = some i → Tidy i) ?_ h0
  intro x _ s hs b j hj
  cases hg : s.records.get b with
  | none =>
    rcases run_new hg hj with ⟨k, st, rfl⟩ | rfl
    · exact ⟨le_refl _, le_refl _, le_refl _, le_refl _, Or.inl rfl, fun h => by cases h⟩
    · exact ⟨le_refl _, le_refl _, le_refl _, le_refl _, Or.inl rfl, fun h => by cases h⟩
  | some i =>
    obtain ⟨j', hj', h⟩ := run_change x.1 s x.2 hg
    rw [hj] at hj'; cases hj'
    rcases h with h | ⟨k, hk, h⟩
    · exact tidy_core h (hs b i hg)
    · exact tidy_core h (tidy_change (hs b i hg) hk)

/-! ### Import of an exported state -/

/-- The record an account has after a restart, before validators are chosen: what it was, without power and lottery number, and
with a score computed from the present stake. -/
def Info.restarted (log : Int → Int) (stake : Int) (i : Info) : Info :=
  { i with lastPower := 0, lastPubKey := 0, lotteryNo := 0, score := log (max 1 stake) - i.strokes + i.okBlocks.tdiv 100 }

theorem toInfo_ofInfo {log : Int → Int} {stake : Int} {a : Addr} {i : Info} {bl : List Int} :
    (GenesisValidator.ofInfo a i bl).toInfo log stake = { i.restarted log stake with status := i.jailed && i.status } := by
  have hmax : (if stake < 1 then (1 : Int) else stake) = max 1 stake := by split <;> omega
  cases i with
  | mk st lp pk lpk sc str ok mi ja un inf ba sta pr jc ln =>
    simp only [GenesisValidator.toInfo, GenesisValidator.ofInfo, Info.updateScore, Info.restarted, hmax, Info.mk.injEq, and_true]
    cases ja <;> simp

theorem get_foldl_blocks {a : Addr} {l : List Int} : ∀ {m : KV Int Addr} {h : Int},
    (l.foldl (fun m h => m.set h a) m).get h = if h ∈ l then some a else m.get h := by
  induction l with
  | nil => intro m h; simp
  | cons x l ih =>
    intro m h
    rw [List.foldl_cons, ih, KV.get_set]
    by_cases h1 : h ∈ l
    · simp [h1]
    · by_cases h2 : h = x
      · simp [h2]
      · simp [h1, h2]

theorem mem_blocksOf {m : KV Int Addr} {a : Addr} {h : Int} : h ∈ blocksOf m a ↔ m.get h = some a := by
  unfold blocksOf
  constructor
  · intro hm
    obtain ⟨x, hx, rfl⟩ := List.mem_map.1 hm
    obtain ⟨h1, h2⟩ := List.mem_filter.1 hx
    have h2' : x.2 = a := by simpa using h2
    exact KV.mem_entries.1 (h2' ▸ h1)
  · intro hm
    exact List.mem_map.2 ⟨(h, a), List.mem_filter.2 ⟨KV.mem_entries.2 hm, by simp⟩, rfl⟩

/-- The state of the import when the accounts of `done` have been dealt with; `s` is the exported state. -/
structure Part (e : Env) (s : State) (done : List Addr) (t : State) : Prop where
  records : ∀ a, t.records.get a = if a ∈ done then (s.records.get a).bind fun i => (e.stake a).map fun x => i.restarted e.log x else none
  proposers : ∀ h, t.proposers.get h = (s.proposers.get h).filter fun a => decide (a ∈ done)
  operators : ∀ k b, t.operators.get k = some b ↔ b ∈ done ∧ ∃ i, s.records.get b = some i ∧ i.isActive = true ∧ i.pubKey = k
  queue : t.queue = KV.empty
  params : t.params = s.params

theorem Part.props {e : Env} {s t : State} {done : List Addr} (h : Part e s done t) (a : Addr) (k : Int) :
    ((blocksOf s.proposers a).foldl (fun m h => m.set h a) t.proposers).get k =
      (s.proposers.get k).filter fun b => decide (b ∈ a :: done) := by
  rw [get_foldl_blocks, h.proposers]
  simp only [mem_blocksOf]
  cases hg : s.proposers.get k with
  | none => simp
  | some b =>
    by_cases hb : b = a
    · subst hb; simp [Option.filter]
    · have : ¬ a = b := fun h => hb h.symm
      simp [Option.filter, hb]

/-- What the stakes must be like: known, and within a signed 64-bit number. -/
def StakesKnown (e : Env) (s : State) : Prop :=
  ∀ a i, s.records.get a = some i → ∃ x, e.stake a = some x ∧ -9223372036854775808 ≤ x ∧ x ≤ 9223372036854775807

theorem StakesKnown.get {e : Env} {s : State} (h : StakesKnown e s) {a : Addr} {i : Info} (hi : s.records.get a = some i) :
    ∃ x, e.stake a = some x ∧ sdkInt64? x = some x := by
  obtain ⟨x, hx, h1, h2⟩ := h a i hi
  exact ⟨x, hx, sdkInt64?_eq (by omega)⟩

/-- The nodes of active validators have different keys. -/
def KeysDiffer (s : State) : Prop :=
  ∀ a b i j, s.records.get a = some i → s.records.get b = some j → i.isActive = true → j.isActive = true → i.pubKey = j.pubKey → a = b

theorem Part.active {e : Env} {s t : State} {done : List Addr} (h : Part e s done t) (hk : KeysDiffer s) (hst : StakesKnown e s)
    {a : Addr} {i : Info} (hi : s.records.get a = some i) (ha : i.isActive = true) (hkey : i.pubKey ≠ 0) (hq : ∃ x, Qualifies e s a x)
    (hn : a ∉ done) :
    ∃ t', setActive e t (.ofInfo a i (blocksOf s.proposers a)) = some t' ∧ Part e s (a :: done) t' := by
  obtain ⟨x, hx, hx'⟩ := hst.get hi
  have ha' := ha
  simp only [Info.isActive, Bool.and_eq_true, Bool.not_eq_true'] at ha'
  obtain ⟨⟨a1, a2⟩, a3⟩ := ha'
  have hput : putGenesis e t (.ofInfo a i (blocksOf s.proposers a)) = some
      { t with records := t.records.set a ((GenesisValidator.ofInfo a i (blocksOf s.proposers a)).toInfo e.log x),
               proposers := (blocksOf s.proposers a).foldl (fun m h => m.set h a) t.proposers } := by
    unfold putGenesis
    simp only [GenesisValidator.ofInfo, hx, hx', Option.bind_eq_bind, Option.bind_some]
  generalize hs1 : ({ t with
      records := t.records.set a ((GenesisValidator.ofInfo a i (blocksOf s.proposers a)).toInfo e.log x),
      proposers := (blocksOf s.proposers a).foldl (fun m h => m.set h a) t.proposers } : State) = s1 at hput
  have r1 : s1.records.get a = some { i.restarted e.log x with status := false } := by
    rw [← hs1]
    simp only [KV.get_set_self, toInfo_ofInfo, a2, Bool.false_and]
  have r2 : ∀ b, b ≠ a → s1.records.get b = t.records.get b := by
    intro b hb; rw [← hs1]; exact KV.get_set_ne _ _ hb
  have o1 : s1.operators = t.operators := by rw [← hs1]
  have hfree : validatorByKey s1 i.pubKey = some none := by
    have : s1.operators.get i.pubKey = none := by
      rw [o1]
      cases hg : t.operators.get i.pubKey with
      | none => rfl
      | some b =>
        obtain ⟨hb, j, hj, hja, hjk⟩ := (h.operators _ _).1 hg
        exact absurd (hk a b i j hi hj ha hja hjk.symm ▸ hb) hn
    unfold validatorByKey
    rw [this]
  have hq1 : isQualified e s1 a = some (true, x) := by
    obtain ⟨y, hy, st, hst', hc⟩ := hq
    rw [hx] at hy; cases hy
    refine C69_qualified.2 ⟨hx, st, hst', ?_⟩
    have hp : s1.params = s.params := by rw [← hs1]; exact h.params
    rcases hc with ⟨j, hj, hs⟩ | ⟨c1, c2, c3, c4, c5⟩
    · rw [hi] at hj; cases hj
      exact Or.inl ⟨_, r1, hs⟩
    · exact Or.inr ⟨hp ▸ c1, hp ▸ c2, hp ▸ c3, c4, c5⟩
  have hon : switchOn e s1 a i.pubKey = some (register e s1 a i.pubKey x) := by
    unfold switchOn
    have hb : (i.restarted e.log x).banned = false := a3
    rw [if_neg hkey]
    simp [r1, hb, hfree, hq1, hx']
  refine ⟨register e s1 a i.pubKey x, ?_, ?_⟩
  · unfold setActive
    have : key? (GenesisValidator.ofInfo a i (blocksOf s.proposers a)).pubKey = some i.pubKey := by
      unfold key?
      rw [if_neg (show (GenesisValidator.ofInfo a i (blocksOf s.proposers a)).pubKey ≠ 0 from hkey)]; rfl
    rw [this]
    simp only [Option.bind_eq_bind, Option.bind_some, hput]
    exact hon
  · have hmax : (if x < 1 then (1 : Int) else x) = max 1 x := by split <;> omega
    refine ⟨?_, ?_, ?_, ?_, ?_⟩
    · intro b
      rw [register_get]
      by_cases hb : b = a
      · subst hb
        rw [if_pos rfl, if_pos (List.mem_cons_self ..), r1, hi, hx]
        simp only [registered, Info.updateScore, Info.restarted, hmax, Option.bind_some, Option.map_some, Option.some.injEq]
        cases i
        simp_all
      · rw [if_neg hb, r2 b hb, h.records]
        simp [hb]
    · intro k
      rw [← h.props a k, ← hs1]; rfl
    · intro k b
      simp only [register, o1, KV.get_set]
      split
      · rename_i hkk
        subst hkk
        constructor
        · rintro ⟨⟩; exact ⟨List.mem_cons_self .., i, hi, ha, rfl⟩
        · rintro ⟨-, j, hj, hja, hjk⟩
          rw [hk b a j i hj hi hja ha hjk]
      · rename_i hkk
        rw [h.operators]
        constructor
        · rintro ⟨h1, h2⟩; exact ⟨List.mem_cons_of_mem _ h1, h2⟩
        · rintro ⟨h1, j, hj, hja, hjk⟩
          rcases List.mem_cons.1 h1 with rfl | h1
          · rw [hi] at hj; cases hj; exact absurd hjk.symm hkk
          · exact ⟨h1, j, hj, hja, hjk⟩
    · rw [← h.queue, ← hs1]; rfl
    · rw [← h.params, ← hs1]; rfl

theorem Part.other {e : Env} {s t : State} {done : List Addr} (h : Part e s done t) (hst : StakesKnown e s)
    {a : Addr} {i : Info} (hi : s.records.get a = some i) (ha : i.isActive = false) (htidy : Tidy i) (hn : a ∉ done) :
    ∃ t', putGenesis e t (.ofInfo a i (blocksOf s.proposers a)) = some t' ∧ Part e s (a :: done) t' := by
  obtain ⟨x, hx, hx'⟩ := hst.get hi
  refine ⟨{ t with
      records := t.records.set a ((GenesisValidator.ofInfo a i (blocksOf s.proposers a)).toInfo e.log x),
      proposers := (blocksOf s.proposers a).foldl (fun m h => m.set h a) t.proposers }, ?_, ?_⟩
  · unfold putGenesis
    simp only [GenesisValidator.ofInfo, hx, hx', Option.bind_eq_bind, Option.bind_some]
  · have hstat : (i.jailed && i.status) = i.status := by
      have h6 := htidy.banned
      simp only [Info.isActive] at ha
      revert ha h6
      cases i.jailed <;> cases i.status <;> cases i.banned <;> simp
    refine ⟨?_, fun k => h.props a k, ?_, h.queue, h.params⟩
    · intro b
      simp only [KV.get_set]
      by_cases hb : b = a
      · subst hb
        rw [if_pos rfl, if_pos (List.mem_cons_self ..), hi, hx, toInfo_ofInfo, hstat]
        rfl
      · rw [if_neg hb, h.records]
        simp [hb]
    · intro k b
      rw [h.operators]
      constructor
      · rintro ⟨h1, h2⟩; exact ⟨List.mem_cons_of_mem _ h1, h2⟩
      · rintro ⟨h1, j, hj, hja, hjk⟩
        rcases List.mem_cons.1 h1 with rfl | h1
        · rw [hi] at hj; cases hj; rw [ha] at hja; cases hja
        · exact ⟨h1, j, hj, hja, hjk⟩

theorem Part.fold {e : Env} {s : State} {step : State → GenesisValidator → Option State} {good : Info → Prop}
    (hstep : ∀ {t done a i}, Part e s done t → s.records.get a = some i → good i → a ∉ done →
      ∃ t', step t (.ofInfo a i (blocksOf s.proposers a)) = some t' ∧ Part e s (a :: done) t') :
    ∀ (l : List (Addr × Info)) {t : State} {done : List Addr}, (∀ r ∈ l, s.records.get r.1 = some r.2 ∧ good r.2) →
      (l.map Prod.fst).Nodup → (∀ r ∈ l, r.1 ∉ done) → Part e s done t →
      ∃ t' done', foldOpt step t (l.map fun r => .ofInfo r.1 r.2 (blocksOf s.proposers r.1)) = some t' ∧ Part e s done' t' ∧
        ∀ a, a ∈ done' ↔ a ∈ done ∨ a ∈ l.map Prod.fst := by
  intro l
  induction l with
  | nil => intro t done _ _ _ h; exact ⟨t, done, rfl, h, by simp⟩
  | cons r l ih =>
    intro t done hl hnd hdis h
    obtain ⟨h1, h2⟩ := hl r (List.mem_cons_self ..)
    obtain ⟨t1, ht1, hp1⟩ := hstep h h1 h2 (hdis r (List.mem_cons_self ..))
    rw [List.map_cons, List.nodup_cons] at hnd
    obtain ⟨t', done', g1, g2, g3⟩ := ih (fun y hy => hl y (List.mem_cons_of_mem _ hy)) hnd.2 (by
      intro y hy hm
      rcases List.mem_cons.1 hm with hm | hm
      · exact hnd.1 (hm ▸ List.mem_map_of_mem hy)
      · exact hdis y (List.mem_cons_of_mem _ hy) hm) hp1
    refine ⟨t', done', ?_, g2, ?_⟩
    · rw [List.map_cons]
      exact foldOpt_cons.2 ⟨t1, ht1, g1⟩
    · intro a
      rw [g3, List.map_cons, List.mem_cons, List.mem_cons]
      tauto

theorem gather_proposers {e : Env} {s t : State} {u : List Upd} (h : gather e s = some (t, u)) : t.proposers = s.proposers := by
  simp only [gather, Option.bind_eq_bind, Option.bind_eq_some_iff, Option.some.injEq, Prod.mk.injEq] at h
  obtain ⟨x, hx, w1, hw1, w2, hw2, rfl, -⟩ := h
  have h0 : x.1.proposers = s.proposers := by
    refine foldOpt_keep (P := fun y : State × List Upd => y.1.proposers = s.proposers) ?_ rfl hx
    intro y r z _ hy hyz
    unfold scanStep at hyz
    split at hyz
    · simp only [Option.bind_eq_bind, Option.bind_eq_some_iff, Option.some.injEq] at hyz
      obtain ⟨k', -, rfl⟩ := hyz
      exact hy
    · split at hyz
      · simp only [Option.bind_eq_bind, Option.bind_eq_some_iff, Option.some.injEq] at hyz
        obtain ⟨k', -, s', hs', rfl⟩ := hyz
        obtain ⟨j, -, rfl⟩ := update_eq.1 hs'
        exact hy
      · cases hyz; exact hy
  have h1 : w1.s.proposers = s.proposers := by
    refine foldOpt_keep (P := fun w : Work => w.s.proposers = s.proposers) ?_ h0 hw1
    intro y r z _ hy hyz
    unfold topStep at hyz
    dsimp only at hyz
    split at hyz
    · cases hyz
    · simp only [Option.bind_eq_bind, Option.bind_eq_some_iff] at hyz
      obtain ⟨g, -, hyz⟩ := hyz
      split at hyz
      · simp only [Option.bind_eq_some_iff, Option.some.injEq] at hyz
        obtain ⟨s', hs', rfl⟩ := hyz
        obtain ⟨j, -, rfl⟩ := update_eq.1 hs'
        exact hy
      · cases hyz; exact hy
  refine foldOpt_keep (P := fun w : Work => w.s.proposers = s.proposers) ?_ h1 hw2
  intro y r z _ hy hyz
  unfold restStep at hyz
  dsimp only at hyz
  split at hyz
  · simp only [Option.bind_eq_bind, Option.bind_eq_some_iff] at hyz
    obtain ⟨g, -, hyz⟩ := hyz
    split at hyz
    · simp only [Option.bind_eq_some_iff, Option.some.injEq] at hyz
      obtain ⟨k', -, s', hs', rfl⟩ := hyz
      obtain ⟨j, -, rfl⟩ := update_eq.1 hs'
      exact hy
    · cases hyz; exact hy
  · simp only [Option.bind_eq_bind, Option.bind_eq_some_iff] at hyz
    obtain ⟨g, -, hyz⟩ := hyz
    split at hyz
    · simp only [Option.bind_eq_some_iff, Option.some.injEq] at hyz
      obtain ⟨s', hs', rfl⟩ := hyz
      obtain ⟨j, -, rfl⟩ := update_eq.1 hs'
      exact hy
    · cases hyz; exact hy

theorem run_proposers {e : Env} {s : State} {op : Op} {h : Int} {a : Addr} (hp : (op.run e s).proposers.get h = some a) :
    s.proposers.get h = some a ∨ ∃ i, s.records.get a = some i := by
  have upd : ∀ {s' : State} {a : Addr} {f : KV Nat Addr → Info → KV Nat Addr × Info}, s'.proposers = s.proposers →
      ((update s' a f).getD s).proposers = s.proposers := by
    intro s' a f h
    cases hu : update s' a f with
    | none => rfl
    | some t => obtain ⟨j, -, rfl⟩ := update_eq.1 hu; exact h
  have stat : ∀ {s1 t : State} {a : Addr}, onStatusUpdate e s1 a = some t → t.proposers = s1.proposers := by
    intro s1 t a h
    rcases onStatusUpdate_some h with rfl | ⟨-, -, h⟩
    · rfl
    · obtain ⟨j, -, rfl⟩ := update_eq.1 h; rfl
  have stk : ∀ {s1 t : State} {a : Addr}, onStakeChanged e s1 a = some t → t.proposers = s1.proposers := by
    intro s1 t a h
    rcases onStakeChanged_some h with rfl | ⟨j, q, st, -, -, -, ⟨-, -, rfl⟩ | ⟨-, rfl⟩⟩ <;> rfl
  have same : (op.run e s).proposers = s.proposers → s.proposers.get h = some a ∨ ∃ i, s.records.get a = some i := by
    intro hs; left; rw [← hs]; exact hp
  cases op with
  | proposed b =>
    change ((markProposed e s b).getD s).proposers.get h = some a at hp
    cases hu : markProposed e s b with
    | none => rw [hu] at hp; exact Or.inl hp
    | some t =>
      rw [hu] at hp
      obtain ⟨j, hj, rfl⟩ := update_eq.1 hu
      simp only [Option.getD_some, KV.get_set] at hp
      split at hp
      · cases hp; exact Or.inr ⟨j, hj⟩
      · exact Or.inl hp
  | switchOn b k =>
    refine same ?_
    show ((switchOn e s b k).getD s).proposers = _
    cases h : switchOn e s b k with
    | none => rfl
    | some t => obtain ⟨_, -, -, -, -, h5, -⟩ := C69_switched_on h; exact h5
  | switchOff b => exact same (upd rfl)
  | tick b => exact same (upd rfl)
  | stroke b => exact same (upd rfl)
  | byzantine b => exact same (upd rfl)
  | unjail b =>
    refine same ?_
    show ((unjail e s b).getD s).proposers = _
    cases h : unjail e s b with
    | none => rfl
    | some t => obtain ⟨i, q, -, -, -, -, ⟨-, st, -, rfl⟩ | ⟨-, rfl⟩⟩ := unjail_some h <;> rfl
  | statusUpdate b =>
    refine same ?_
    show ((onStatusUpdate e s b).getD s).proposers = _
    cases h : onStatusUpdate e s b with
    | none => rfl
    | some t => exact stat h
  | stakeChanged b =>
    refine same ?_
    show ((onStakeChanged e s b).getD s).proposers = _
    cases h : onStakeChanged e s b with
    | none => rfl
    | some t => exact stk h
  | addStaff b =>
    refine same ?_
    show (addToStaff s b).proposers = _
    unfold addToStaff
    split <;> rfl
  | removeStaff b =>
    refine same ?_
    show (removeFromStaff e s b).proposers = _
    rcases removeFromStaff_cases e s b with h | ⟨i, -, -, s1, rfl, h | ⟨-, s2, h2, h | h⟩⟩
    · rw [h]
    · rw [h]
    · rw [h, stat h2]
    · rw [stk h, stat h2]
  | amnesty => exact same rfl
  | setParams p =>
    refine same ?_
    show ((setParams s p).getD s).proposers = _
    unfold setParams
    split <;> rfl
  | gather =>
    refine same ?_
    show (((gather e s).map Prod.fst).getD s).proposers = _
    cases h : gather e s with
    | none => rfl
    | some x => exact gather_proposers (u := x.2) h

/-- Every block in the index was proposed by an account that has a record. -/
theorem proposers_runs {s : State} (h0 : ∀ h a, s.proposers.get h = some a → ∃ i, s.records.get a = some i) (l : List (Env × Op)) :
    ∀ h a, (runs l s).proposers.get h = some a → ∃ i, (runs l s).records.get a = some i := by
  refine runs_keep (P := fun s => ∀ h a, s.proposers.get h = some a → ∃ i, s.records.get a = some i) ?_ h0
  intro x _ s hs h a ha
  have : ∃ i, s.records.get a = some i := by
    rcases run_proposers ha with h' | h'
    · exact hs h a h'
    · exact h'
  obtain ⟨i, hi⟩ := this
  obtain ⟨j, hj, -⟩ := run_change x.1 s x.2 hi
  exact ⟨j, hj⟩

/-! ### C72 -/

/-- A store as left behind by an earlier start: nothing chosen yet, sensible records, blocks proposed by known accounts. -/
structure Orderly (s : State) : Prop extends Start s where
  tidy : ∀ a i, s.records.get a = some i → Tidy i
  known : ∀ h a, s.proposers.get h = some a → ∃ i, s.records.get a = some i

/-- C72, the file: what any execution leaves behind is exported to an acceptable genesis file exactly when somebody is active. -/
theorem C72_file {s : State} (hs : Orderly s) {l : List (Env × Op)} (hsort : ∀ x ∈ l, SortOk x.1.sort) :
    genesisValid (runs l s).params (exportActive (runs l s)) (exportRest (runs l s)) = true ↔
      ∃ a i, (runs l s).records.get a = some i ∧ i.status = true ∧ i.jailed = false ∧ i.banned = false := by
  have hg := hs.toStart.good.runs hsort
  have ht := tidy_runs hs.tidy l
  generalize runs l s = t at hg ht
  have plaus : ∀ a i, t.records.get a = some i → Plausible (.ofInfo a i (blocksOf t.proposers a)) := by
    intro a i hi
    obtain ⟨h1, h2, h3, h4, h5, -⟩ := ht a i hi
    exact ⟨h1, h2, h3, h4, h5⟩
  rw [C71_genesis]
  constructor
  · rintro ⟨-, hne, -, -⟩
    obtain ⟨v, hv⟩ := List.exists_mem_of_ne_nil _ hne
    obtain ⟨r, hr, -⟩ := List.mem_map.1 hv
    obtain ⟨h1, h2⟩ := List.mem_filter.1 hr
    simp only [Info.isActive, Bool.and_eq_true, Bool.not_eq_true'] at h2
    exact ⟨r.1, r.2, KV.mem_entries.1 h1, h2.1.1, h2.1.2, h2.2⟩
  · rintro ⟨a, i, hi, h1, h2, h3⟩
    refine ⟨(C71_params _).1 hg.params, ?_, ?_, ?_⟩
    · intro hnil
      have : GenesisValidator.ofInfo a i (blocksOf t.proposers a) ∈ exportActive t :=
        List.mem_map.2 ⟨(a, i), List.mem_filter.2 ⟨KV.mem_entries.2 hi, by simp [Info.isActive, h1, h2, h3]⟩, rfl⟩
      rw [hnil] at this
      cases this
    · intro v hv
      obtain ⟨r, hr, rfl⟩ := List.mem_map.1 hv
      obtain ⟨g1, g2⟩ := List.mem_filter.1 hr
      simp only [Info.isActive, Bool.and_eq_true, Bool.not_eq_true'] at g2
      exact ⟨hg.on r.1 r.2 (KV.mem_entries.1 g1) g2.1.1, g2.1.2, g2.2⟩
    · intro v hv
      rcases List.mem_append.1 hv with hv | hv
      · obtain ⟨r, hr, rfl⟩ := List.mem_map.1 hv
        exact plaus _ _ (KV.mem_entries.1 (List.mem_filter.1 hr).1)
      · obtain ⟨r, hr, rfl⟩ := List.mem_map.1 hv
        exact plaus _ _ (KV.mem_entries.1 (List.mem_filter.1 hr).1)

/-- C72, the restart, under three conditions that executions do not guarantee (see below): all stakes are known, every active
validator still qualifies, and no two of them share a key.  Then the exported state of any execution is imported without a
failure; the new store has the same accounts with the same records, except that power, last key and lottery number are assigned
anew and the score is computed from the present stake; the blocks proposed and the parameters are the same; the index of keys
consists of the keys of the active validators.  Missing: the order of the lottery queue and the keys of inactive validators are
not restored (see `C72_evidence_lost_violation`). -/
theorem C72_restart_partial {s : State} (hs : Orderly s) {l : List (Env × Op)} (hsort : ∀ x ∈ l, SortOk x.1.sort) {e : Env}
    (he : SortOk e.sort) (hst : StakesKnown e (runs l s))
    (hq : ∀ a i, (runs l s).records.get a = some i → i.isActive = true → ∃ x, Qualifies e (runs l s) a x) (hk : KeysDiffer (runs l s)) :
    ∃ t u, initGenesis e (runs l s).params (exportActive (runs l s)) (exportRest (runs l s)) = some (t, u) ∧
      (∀ a, (runs l s).records.get a = none → t.records.get a = none) ∧
      (∀ a i, (runs l s).records.get a = some i → ∃ x power key no, e.stake a = some x ∧ t.records.get a = some
        { i with score := e.log (max 1 x) - i.strokes + i.okBlocks.tdiv 100, lastPower := power, lastPubKey := key, lotteryNo := no }) ∧
      t.proposers = (runs l s).proposers ∧ t.params = (runs l s).params ∧
      ∀ k a, t.operators.get k = some a ↔ ∃ i, (runs l s).records.get a = some i ∧ i.isActive = true ∧ i.pubKey = k := by
  have hg := hs.toStart.good.runs hsort
  have ht := tidy_runs hs.tidy l
  have hp := proposers_runs hs.known l
  generalize runs l s = T at hg ht hp hst hq hk
  have hset : setParams ⟨KV.empty, KV.empty, KV.empty, KV.empty, T.params⟩ T.params =
      some ⟨KV.empty, KV.empty, KV.empty, KV.empty, T.params⟩ := by
    unfold setParams; rw [if_pos hg.params]
  have h0 : Part e T [] ⟨KV.empty, KV.empty, KV.empty, KV.empty, T.params⟩ := by
    refine ⟨fun a => by simp, fun h => ?_, fun k b => by simp, rfl, rfl⟩
    rw [KV.get_empty]
    cases T.proposers.get h <;> simp
  have hnd : ∀ (f : Addr × Info → Bool), ((T.records.entries.filter f).map Prod.fst).Nodup :=
    fun f => (List.filter_sublist.map _).nodup T.records.keys_nodup
  obtain ⟨s1, d1, f1, p1, m1⟩ := Part.fold (e := e) (s := T) (step := setActive e) (good := fun i => i.isActive = true)
    (fun hP hi ha hn => hP.active hk hst hi ha
      (by have ha' := ha; simp only [Info.isActive, Bool.and_eq_true] at ha'; exact hg.on _ _ hi ha'.1.1) (hq _ _ hi ha) hn)
    (T.records.entries.filter fun r => r.2.isActive)
    (fun r hr => ⟨KV.mem_entries.1 (List.mem_filter.1 hr).1, (List.mem_filter.1 hr).2⟩) (hnd _) (by simp) h0
  obtain ⟨s2, d2, f2, p2, m2⟩ := Part.fold (e := e) (s := T) (step := putGenesis e) (good := fun i => i.isActive = false)
    (fun hP hi ha hn => hP.other hst hi ha (ht _ _ hi) hn)
    (T.records.entries.filter fun r => !r.2.isActive)
    (fun r hr => ⟨KV.mem_entries.1 (List.mem_filter.1 hr).1, by simpa using (List.mem_filter.1 hr).2⟩) (hnd _) (by
      intro r hr hd
      rw [m1] at hd
      rcases hd with hd | hd
      · cases hd
      · obtain ⟨r', hr', he'⟩ := List.mem_map.1 hd
        have g1 := KV.mem_entries.1 (List.mem_filter.1 hr).1
        have g2 := KV.mem_entries.1 (List.mem_filter.1 hr').1
        rw [he', g1] at g2
        have a1 := (List.mem_filter.1 hr).2
        have a2 := (List.mem_filter.1 hr').2
        rw [Option.some.injEq] at g2
        rw [g2, a2] at a1
        cases a1) p1
  have hall : ∀ a, a ∈ d2 ↔ ∃ i, T.records.get a = some i := by
    intro a
    rw [m2, m1]
    constructor
    · rintro ((h | h) | h)
      · cases h
      · obtain ⟨r, hr, rfl⟩ := List.mem_map.1 h; exact ⟨r.2, KV.mem_entries.1 (List.mem_filter.1 hr).1⟩
      · obtain ⟨r, hr, rfl⟩ := List.mem_map.1 h; exact ⟨r.2, KV.mem_entries.1 (List.mem_filter.1 hr).1⟩
    · rintro ⟨i, hi⟩
      cases ha : i.isActive with
      | true => exact Or.inl (Or.inr (List.mem_map.2 ⟨(a, i), List.mem_filter.2 ⟨KV.mem_entries.2 hi, ha⟩, rfl⟩))
      | false => exact Or.inr (List.mem_map.2 ⟨(a, i), List.mem_filter.2 ⟨KV.mem_entries.2 hi, by simp [ha]⟩, rfl⟩)
  have hrec : ∀ a i, T.records.get a = some i → ∃ x, e.stake a = some x ∧ s2.records.get a = some (i.restarted e.log x) := by
    intro a i hi
    obtain ⟨x, hx, -⟩ := hst.get hi
    refine ⟨x, hx, ?_⟩
    rw [p2.records, if_pos ((hall a).2 ⟨i, hi⟩), hi, hx]; rfl
  have hrec' : ∀ a j, s2.records.get a = some j → ∃ i x, T.records.get a = some i ∧ e.stake a = some x ∧ j = i.restarted e.log x := by
    intro a j hj
    rw [p2.records] at hj
    split at hj
    · rename_i hd
      obtain ⟨i, hi⟩ := (hall a).1 hd
      obtain ⟨x, hx, -⟩ := hst.get hi
      rw [hi, hx] at hj
      cases hj
      exact ⟨i, x, hi, hx, rfl⟩
    · cases hj
  have hG : Good s2 := by
    refine ⟨by rw [p2.params]; exact hg.params, ?_, ?_⟩
    · intro a j hj
      obtain ⟨i, x, -, -, rfl⟩ := hrec' a j hj
      simp [Clean, Info.restarted]
    · intro a j hj hon
      obtain ⟨i, x, hi, -, rfl⟩ := hrec' a j hj
      exact hg.on a i hi hon
  obtain ⟨t, u, hgat⟩ := hG.total he
  obtain ⟨-, top, rest, mid, O, -⟩ := hG.gather he hgat
  refine ⟨t, u, ?_, ?_, ?_, ?_, ?_, ?_⟩
  · unfold initGenesis
    rw [hset]
    simp only [Option.bind_eq_bind, Option.bind_some, exportActive, exportRest]
    rw [f1]
    simp only [Option.bind_some]
    rw [f2]
    exact hgat
  · intro a ha
    have hn : s2.records.get a = none := by
      cases hj : s2.records.get a with
      | none => rfl
      | some j => obtain ⟨i, x, hi, -, -⟩ := hrec' a j hj; rw [ha] at hi; cases hi
    have := gather_core hgat a
    simp only [field, hn, Option.map_none, Option.map_eq_none_iff] at this
    exact this
  · intro a i hi
    obtain ⟨x, hx, hr⟩ := hrec a i hi
    have := gather_core hgat a
    simp only [field, hr, Option.map_some] at this
    cases hj : t.records.get a with
    | none => simp [hj] at this
    | some j =>
      simp only [hj, Option.map_some, Option.some.injEq] at this
      refine ⟨x, j.lastPower, j.lastPubKey, j.lotteryNo, hx, ?_⟩
      cases i; cases j
      simp only [Info.core, Info.restarted, Info.mk.injEq] at this
      simp_all
  · refine KV.ext fun h => ?_
    rw [O.proposers, p2.proposers]
    cases hh : T.proposers.get h with
    | none => rfl
    | some a => simp [Option.filter, (hall a).2 (hp h a hh)]
  · rw [O.params, p2.params]
  · have back : ∀ k a, s2.operators.get k = some a → ∃ i, T.records.get a = some i ∧ i.isActive = true ∧ i.pubKey = k :=
      fun k a h => ((p2.operators k a).1 h).2
    have fwd : ∀ k a, t.operators.get k = some a → ∃ i, T.records.get a = some i ∧ i.isActive = true ∧ i.pubKey = k := by
      intro k a h
      rcases gather_operators hgat h with h | ⟨j, hj, ha, hk'⟩
      · exact back k a h
      · obtain ⟨i, x, hi, -, rfl⟩ := hrec' a j hj
        exact ⟨i, hi, ha, hk'⟩
    intro k a
    refine ⟨fwd k a, ?_⟩
    rintro ⟨i, hi, ha, rfl⟩
    obtain ⟨b, hb⟩ := gather_operators_keep hgat ((p2.operators i.pubKey a).2 ⟨(hall a).2 ⟨i, hi⟩, i, hi, ha, rfl⟩)
    obtain ⟨j, hj, hja, hjk⟩ := fwd _ _ hb
    rw [hb, hk a b i j hi hj ha hja hjk.symm]

theorem Ex.start_orderly (max lottery : Nat) (h : 0 < max) : Orderly (Ex.start max lottery) := by
  refine ⟨Ex.start_ok max lottery h, ?_, ?_⟩
  · intro a i h; change KV.empty.get a = some i at h; rw [KV.get_empty] at h; cases h
  · intro k a h; change KV.empty.get k = some a at h; rw [KV.get_empty] at h; cases h

/-- Start again from what the state exports. -/
def restart (e : Env) (s : State) : Option (State × List Upd) := initGenesis e s.params (exportActive s) (exportRest s)

/-- Two validators, the first of whom goes to jail having been reported once; a third one is on and spare; a restart with a higher
stake gives the same records with new scores. -/
def Ex.before : List (Env × Op) :=
  [(Ex.env 1, .switchOn 1 71), (Ex.env 1, .switchOn 2 72), (Ex.env 1, .switchOn 3 73), (Ex.env 1, .gather), (Ex.env 2, .proposed 2),
    (Ex.env 2, .byzantine 1), (Ex.env 2, .stroke 1), (Ex.env 2, .tick 2), (Ex.env 2, .gather), (Ex.env 3, .stroke 1), (Ex.env 3, .tick 2),
    (Ex.env 3, .gather)]

example : ((restart (Ex.env 0 8000) (runs Ex.before (Ex.start 1 0))).map fun x => (x.1.records.get 1, x.1.proposers.get 1, x.2)) =
      some (some { status := true, pubKey := 71, score := 6, strokes := 2, jailed := true, unjailAt := 13, infractions := 1, jailCount := 1 },
        some 2, [⟨72, 15⟩]) ∧
    ((restart (Ex.env 0 8000) (runs Ex.before (Ex.start 1 0))).map fun x => (x.1.records.get 2, x.1.operators.get 72, x.1.operators.get 71)) =
      some (some { status := true, pubKey := 72, score := 8, okBlocks := 2, proposed := 1, lastPower := 15, lastPubKey := 72 }, some 2, none) := by
  decide +kernel

/-- The example meets the conditions of `C72_restart_partial`. -/
example : KeysDiffer (runs Ex.before (Ex.start 1 0)) ∧ StakesKnown (Ex.env 0 8000) (runs Ex.before (Ex.start 1 0)) ∧
    ∀ a, Qualifies (Ex.env 0 8000) (runs Ex.before (Ex.start 1 0)) a 8000 := by
  have hall : ∀ a i, (runs Ex.before (Ex.start 1 0)).records.get a = some i → i.pubKey = a + 70 := by
    intro a i h
    have hm := KV.mem_entries.2 h
    have : ∀ r ∈ (runs Ex.before (Ex.start 1 0)).records.entries, r.2.pubKey = r.1 + 70 := by decide +kernel
    exact this _ hm
  have hpar : (runs Ex.before (Ex.start 1 0)).params = Ex.params 1 0 := by decide +kernel
  refine ⟨?_, ?_, ?_⟩
  · intro a b i j hi hj _ _ h
    rw [hall a i hi, hall b j hj] at h
    exact Nat.add_right_cancel h
  · intro a i _
    exact ⟨8000, rfl, by decide, by decide⟩
  · intro a
    have hself : (Ex.env 0 8000).self a = 500 := rfl
    refine ⟨rfl, 5, rfl, Or.inr ⟨?_, ?_, ?_, by rw [hself]; decide, by decide⟩⟩ <;> rw [hpar] <;> try rw [hself]
    all_goals decide

/-- The full claim fails: an active validator whose stake falls below the minimum stays on (see C33); the exported file is
accepted, but the chain cannot be started from it. -/
theorem C72_unqualified_violation : ∃ (s : State) (l : List (Env × Op)) (e : Env), Orderly s ∧ (∀ x ∈ l, SortOk x.1.sort) ∧ SortOk e.sort ∧
    genesisValid (runs l s).params (exportActive (runs l s)) (exportRest (runs l s)) = true ∧ (restart e (runs l s)).isNone = true := by
  refine ⟨Ex.start 3 0, [(Ex.env 1, .switchOn 1 71), (Ex.env 1, .gather), (Ex.env 2 900, .stakeChanged 1), (Ex.env 2, .gather)], Ex.env 0 900,
    Ex.start_orderly 3 0 (by omega), ?_, sortBefore_ok, by decide +kernel, by decide +kernel⟩
  intro x hx
  simp only [List.mem_cons, List.not_mem_nil, or_false] at hx
  rcases hx with rfl | rfl | rfl | rfl <;> exact sortBefore_ok

/-- It fails as well when two active validators share a key, which may come about while one of them is in jail (see C28). -/
theorem C72_shared_key_violation : ∃ (s : State) (l : List (Env × Op)) (e : Env), Orderly s ∧ (∀ x ∈ l, SortOk x.1.sort) ∧ SortOk e.sort ∧
    genesisValid (runs l s).params (exportActive (runs l s)) (exportRest (runs l s)) = true ∧
    (∀ a, Qualifies e (runs l s) a 5000) ∧ (restart e (runs l s)).isNone = true := by
  refine ⟨Ex.start 5 0, [(Ex.env 1, .switchOn 1 71), (Ex.env 1, .gather), (Ex.env 2, .stroke 1),
    (Ex.env 3, .stroke 1), (Ex.env 3, .gather), (Ex.env 4, .switchOn 2 71), (Ex.env 4, .gather), (Ex.env 20, .unjail 1)], Ex.env 0,
    Ex.start_orderly 5 0 (by omega), ?_, sortBefore_ok, by decide +kernel, ?_, by decide +kernel⟩
  · intro x hx
    simp only [List.mem_cons, List.not_mem_nil, or_false] at hx
    rcases hx with rfl | rfl | rfl | rfl | rfl | rfl | rfl | rfl <;> exact sortBefore_ok
  · intro a
    have hself : (Ex.env 0).self a = 500 := rfl
    refine ⟨rfl, 5, rfl, Or.inr ⟨?_, ?_, ?_, by rw [hself]; decide, by decide⟩⟩ <;> try rw [hself]
    all_goals decide +kernel

/-- Something is lost even when the restart succeeds: the keys of jailed validators.  Evidence of a second offence leads to the
ban of a jailed validator; when it arrives after a restart, the validator is not found and not banned, and may return.  (A
consensus engine that starts with an empty evidence pool does not report offences from before the restart; this one is about the
module.) -/
theorem C72_evidence_lost_violation : ∃ (s : State) (l : List (Env × Op)) (e : Env) (t : State) (u : List Upd), Orderly s ∧
    (∀ x ∈ l, SortOk x.1.sort) ∧ restart e (runs l s) = some (t, u) ∧
    Has (fun i => i.banned = true) (punish [71] (runs l s)) 1 ∧
    Has (fun i => i.banned = false) (punish [71] t) 1 ∧
    Has (fun i => i.isActive = true) ((Op.unjail 1).run (Ex.env 13 8000) (punish [71] t)) 1 := by
  cases hx : restart (Ex.env 0 8000) (runs Ex.before (Ex.start 1 0)) with
  | none =>
    exfalso
    have : (restart (Ex.env 0 8000) (runs Ex.before (Ex.start 1 0))).isSome = true := by decide +kernel
    rw [hx] at this; cases this
  | some x =>
    have has : ∀ {s : State} {f : Info → Bool} {v : Bool}, (s.records.get 1).map f = some v → Has (fun i => f i = v) s 1 := by
      intro s f v h
      cases hg : s.records.get 1 with
      | none => rw [hg] at h; cases h
      | some i => rw [hg] at h; exact ⟨i, hg, by simpa using h⟩
    refine ⟨Ex.start 1 0, Ex.before, Ex.env 0 8000, x.1, x.2, Ex.start_orderly 1 0 (by omega), ?_, hx, ?_, ?_, ?_⟩
    · intro x hx
      simp only [Ex.before, List.mem_cons, List.not_mem_nil, or_false] at hx
      rcases hx with rfl | rfl | rfl | rfl | rfl | rfl | rfl | rfl | rfl | rfl | rfl | rfl <;> exact sortBefore_ok
    · exact has (f := Info.banned) (by decide +kernel)
    · refine has (f := Info.banned) ?_
      have : (restart (Ex.env 0 8000) (runs Ex.before (Ex.start 1 0))).map (fun x => ((punish [71] x.1).records.get 1).map Info.banned) =
        some (some false) := by decide +kernel
      rw [hx] at this
      simpa using this
    · refine has (f := Info.isActive) ?_
      have : (restart (Ex.env 0 8000) (runs Ex.before (Ex.start 1 0))).map
        (fun x => (((Op.unjail 1).run (Ex.env 13 8000) (punish [71] x.1)).records.get 1).map Info.isActive) = some (some true) := by decide +kernel
      rw [hx] at this
      simpa using this

end Verif.Noding
