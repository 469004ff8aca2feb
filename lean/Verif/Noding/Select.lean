import Verif.Noding.Sync

/-! Invariants of executions that need no assumption on keys, and what a selection amounts to. -/
namespace Verif.Noding
open Verif.Util

/-- The store before the first selection: valid parameters, an empty queue, nobody has a power or a number, and whoever is
switched on has a key. -/
structure Start (s : State) : Prop where
  params : s.params.validate? = some true
  queue : s.queue = KV.empty
  fresh : ∀ a i, s.records.get a = some i → i.lastPower = 0 ∧ i.lastPubKey = 0 ∧ i.lotteryNo = 0
  on : ∀ a i, s.records.get a = some i → i.status = true → i.pubKey ≠ 0

/-- What every execution keeps. -/
structure Good (s : State) : Prop where
  params : s.params.validate? = some true
  clean : ∀ a i, s.records.get a = some i → Clean i
  on : ∀ a i, s.records.get a = some i → i.status = true → i.pubKey ≠ 0

theorem Start.good {s : State} (h : Start s) : Good s :=
  ⟨h.params, fun a i hi => by have := h.fresh a i hi; unfold Clean; rw [this.1, this.2.1]; simp, h.on⟩

theorem Start.linked {s : State} (h : Start s) : Linked s := by
  have h0 : ∀ a, no s a = 0 := by
    intro a
    unfold no
    cases hg : s.records.get a with
    | none => rfl
    | some i => simpa using (h.fresh a i hg).2.2
  refine ⟨?_, fun a ha => absurd (h0 a) ha, fun a i hi hn => absurd (h.fresh a i hi).2.2 hn⟩
  intro n a hn
  rw [h.queue, KV.get_empty] at hn; cases hn

theorem Good.active_key {s : State} (h : Good s) : ∀ a i, s.records.get a = some i → i.isActive = true → i.pubKey ≠ 0 :=
  fun a i hi ha => h.on a i hi (by simp only [Info.isActive, Bool.and_eq_true] at ha; exact ha.1.1)

theorem Good.total {e : Env} {s : State} (h : Good s) (hsort : SortOk e.sort) : ∃ t u, gather e s = some (t, u) :=
  gather_total hsort h.clean h.active_key h.params

/-- The rows of a selection, with the facts used over and over. -/
structure Selection (e : Env) (s t : State) (top rest : List Row) : Prop where
  pairs : (top ++ rest).map Row.pair = e.sort (actives s)
  size : top.length = min s.params.maxValidators (actives s).length
  mem : ∀ x ∈ top ++ rest, s.records.get x.acc = some x.info ∧ x.info.isActive = true
  cover : ∀ a i, s.records.get a = some i → i.isActive = true → ∃ x ∈ top ++ rest, x.acc = a ∧ x.info = i
  nodup : ((top ++ rest).map Row.acc).Nodup
  pos : ∀ x ∈ top ++ rest, ∀ p, x.power = some p → 0 < p
  row : ∀ x ∈ top ++ rest, t.records.get x.acc = some (settle x.info x.power x.no)
  other : ∀ b, b ∉ (top ++ rest).map Row.acc → t.records.get b = (s.records.get b).map Info.clear
  ofTop : ∀ x ∈ top, x.power.isSome = true ∧ x.no = 0
  ofRest : ∀ x ∈ rest, x.no ≠ 0
  powers : ∃ g, assign? s.params.maxValidators s.params.votingPower {} (((top ++ rest).filter fun x => x.power.isSome).map fun x => x.info.score)
    = some ((top ++ rest).filterMap Row.power, g)
  sorted : (top ++ rest).Pairwise fun x y => y.info.score < x.info.score ∨ (y.info.score = x.info.score ∧ y.info.okBlocks ≤ x.info.okBlocks)

theorem quota_fst (p : Params) (n : Nat) : (quota p n).1 = min p.maxValidators n := by
  unfold quota; split <;> dsimp only <;> omega

theorem Outcome.selection {e : Env} {s t : State} {u : List Upd} {top rest : List Row} {mid : State} (O : Outcome e s t u top rest mid)
    (hsort : SortOk e.sort) (hp : s.params.validate? = some true) : Selection e s t top rest := by
  have hperm := hsort.perm (actives s)
  have hmem : ∀ x ∈ top ++ rest, s.records.get x.acc = some x.info ∧ x.info.isActive = true := by
    intro x hx
    have h1 : x.pair ∈ e.sort (actives s) := by rw [← O.pairs]; exact List.mem_map_of_mem hx
    have := hperm.mem_iff.1 h1
    simp only [actives, List.mem_filter] at this
    exact ⟨KV.mem_entries.1 this.1, this.2⟩
  obtain ⟨hmax, -, hd⟩ := params_ok hp
  refine ⟨O.pairs, by rw [O.size, quota_fst], hmem, ?_, ?_, ?_, O.row, O.other, O.ofTop, ?_, O.powers, ?_⟩
  · intro a i hi ha
    have h1 : (a, i) ∈ (top ++ rest).map Row.pair := by
      rw [O.pairs, hperm.mem_iff]
      simp only [actives, List.mem_filter]
      exact ⟨KV.mem_entries.2 hi, ha⟩
    obtain ⟨x, hx, he⟩ := List.mem_map.1 h1
    simp only [Row.pair, Prod.mk.injEq] at he
    exact ⟨x, hx, he.1, he.2⟩
  · have : (top ++ rest).map Row.acc = ((top ++ rest).map Row.pair).map Prod.fst := by simp [Row.pair, Function.comp_def]
    rw [this, O.pairs, (hperm.map Prod.fst).nodup_iff]
    exact ((List.filter_sublist (l := s.records.entries)).map Prod.fst).nodup s.records.keys_nodup
  · intro x hx p hxp
    obtain ⟨g, hgen⟩ := O.powers
    exact assign?_pos hd hgen p (List.mem_filterMap.2 ⟨x, hx, hxp⟩)
  · intro x hx
    obtain ⟨-, -, h3, h4⟩ := O.ofRest x hx
    by_cases h0 : x.info.lotteryNo = 0
    · exact (h4 h0).1
    · rw [h3 h0]; exact h0
  · have := hsort.sorted (actives s)
    rw [← O.pairs, List.pairwise_map] at this
    exact this

theorem Good.gather {e : Env} {s t : State} {u : List Upd} (h : Good s) (hsort : SortOk e.sort) (hg : gather e s = some (t, u)) :
    Good t ∧ ∃ top rest mid, Outcome e s t u top rest mid ∧ Selection e s t top rest := by
  obtain ⟨top, rest, mid, O⟩ := gather_outcome hsort h.clean hg
  have S := O.selection hsort h.params
  refine ⟨⟨by rw [O.params]; exact h.params, ?_, ?_⟩, top, rest, mid, O, S⟩
  · intro a j hj
    by_cases hin : a ∈ (top ++ rest).map Row.acc
    · obtain ⟨x, hx, rfl⟩ := List.mem_map.1 hin
      rw [S.row x hx] at hj; cases hj
      unfold Clean
      rw [(settle_inj_fields ..).2.2.1, (settle_inj_fields ..).2.2.2]
      cases hp : x.power with
      | none => simp
      | some p => simp only [Option.getD_some, Option.isSome_some, if_true]; exact ⟨fun h0 => absurd h0 (S.pos x hx p hp).ne', fun h0 => absurd h0 (O.keys x hx)⟩
    · rw [S.other a hin] at hj
      cases hs : s.records.get a with
      | none => rw [hs] at hj; cases hj
      | some i =>
        rw [hs] at hj
        simp only [Option.map_some, Option.some.injEq] at hj
        subst hj
        unfold Clean Info.clear; simp
  · intro a j hj hst
    have := gather_core hg a
    simp only [field, hj, Option.map_some] at this
    cases hs : s.records.get a with
    | none => rw [hs] at this; cases this
    | some i =>
      rw [hs] at this
      simp only [Option.map_some, Option.some.injEq] at this
      have hf := core_fields this
      rw [hf.2.1]; exact h.on a i hs (hf.1 ▸ hst)

theorem Good.run {e : Env} {s : State} {op : Op} (h : Good s) (hsort : SortOk e.sort) : Good (op.run e s) := by
  by_cases hg : op = .gather
  · subst hg
    obtain ⟨t, u, ht⟩ := h.total hsort
    show Good (((Noding.gather e s).map Prod.fst).getD s)
    rw [ht]; exact (h.gather hsort ht).1
  refine ⟨?_, ?_, ?_⟩
  · rcases run_params e s op with h1 | ⟨p, -, h1, h2⟩
    · rw [h1]; exact h.params
    · rw [h2]; exact h1
  · intro b j hj
    cases hs : s.records.get b with
    | some i =>
      obtain ⟨j2, h3, h4⟩ := run_last (P := Clean) (fun x y hp hx hy => by unfold Clean at hp ⊢; rw [← hx, ← hy]; exact hp) e s hg
        ⟨i, hs, h.clean b i hs⟩
      rw [hj] at h3; cases h3; exact h4
    | none =>
      rcases run_fresh e s op hs with h1 | ⟨j1, h1, h2⟩
      · rw [hj] at h1; cases h1
      · rw [hj] at h1; cases h1; unfold Clean; rw [h2.1, h2.2.1]; simp
  · intro b j hj hst
    cases hs : s.records.get b with
    | some i =>
      obtain ⟨j1, h1, h2⟩ := run_keys e s op hs
      rw [hj] at h1; cases h1
      rcases h2 with ⟨h2, h3⟩ | ⟨k, -, h2, h3⟩
      · rw [h2]; exact h.on b i hs (h3 hst)
      · rw [h3]; exact h2
    | none =>
      rcases run_fresh e s op hs with h1 | ⟨j1, h1, h2⟩
      · rw [hj] at h1; cases h1
      · rw [hj] at h1; cases h1
        rcases h2.2.2.2.2.2.2 with ⟨k, -, rfl, h5⟩ | ⟨-, -, h4⟩
        · exact h5
        · rw [hst] at h4; cases h4

theorem Good.runs {l : List (Env × Op)} {s : State} (h : Good s) (hsort : ∀ x ∈ l, SortOk x.1.sort) : Good (runs l s) :=
  runs_keep (P := Good) (fun x hx _ hs => hs.run (hsort x hx)) h

/-- Every stake callback of the execution is harmless. -/
def Calm : List (Env × Op) → State → Prop
  | [], _ => True
  | x :: l, s => (∀ a, x.2 = .stakeChanged a → Harmless x.1 s a) ∧ Calm l (x.2.run x.1 s)

theorem Linked.getD {s : State} {o : Option State} (h : Linked s) (ho : ∀ t, o = some t → Linked t) : Linked (o.getD s) := by
  cases o with
  | none => exact h
  | some t => exact ho t rfl

theorem Linked.run {e : Env} {s : State} {op : Op} (h : Linked s) (hg : Good s) (hsort : SortOk e.sort)
    (hh : ∀ a, op = .stakeChanged a → Harmless e s a) : Linked (op.run e s) := by
  cases op with
  | switchOn a k => exact h.getD fun t ht => h.switchOn ht
  | switchOff a => exact h.getD fun t ht => h.switchOff ht
  | unjail a => exact h.getD fun t ht => h.unjail ht
  | statusUpdate a => exact h.getD fun t ht => h.statusUpdate ht
  | stakeChanged a => exact h.getD fun t ht => h.stakeChanged (hh a rfl) ht
  | proposed a => exact h.getD fun t ht => h.proposed ht
  | tick a => exact h.getD fun t ht => h.tick ht
  | stroke a => exact h.getD fun t ht => h.stroke ht
  | byzantine a => exact h.getD fun t ht => h.byzantine ht
  | addStaff a => exact h.addStaff a
  | removeStaff a => exact h.removeStaff a
  | amnesty => exact h.amnesty
  | setParams p =>
    refine h.getD fun t ht => ?_
    unfold Noding.setParams at ht
    split at ht
    · simp only [Option.some.injEq] at ht; subst ht; exact h.of_eq rfl rfl
    · simp at ht
  | gather =>
    show Linked (((Noding.gather e s).map Prod.fst).getD s)
    cases ht : Noding.gather e s with
    | none => exact h
    | some x =>
      obtain ⟨t, u⟩ := x
      obtain ⟨-, top, rest, mid, O, -⟩ := hg.gather hsort ht
      exact O.linked h

theorem Linked.runs : ∀ {l : List (Env × Op)} {s : State}, Linked s → Good s → (∀ x ∈ l, SortOk x.1.sort) → Calm l s → Linked (runs l s) := by
  intro l
  induction l with
  | nil => intro s h _ _ _; exact h
  | cons x l ih =>
    intro s h hg hsort hc
    have hx := hsort x (List.mem_cons_self ..)
    exact ih (h.run hg hx hc.1) (hg.run hx) (fun y hy => hsort y (List.mem_cons_of_mem _ hy)) hc.2

/-! ## Who is chosen -/

theorem state_top {t : State} {a : Addr} : validatorState t a = .top ↔ ∃ i, t.records.get a = some i ∧ i.isActive = true ∧
    i.lastPower ≠ 0 ∧ i.lotteryNo = 0 := by
  unfold validatorState
  cases t.records.get a with
  | none => simp
  | some i =>
    simp only [Option.some.injEq, exists_eq_left', Info.isActive, Bool.and_eq_true, Bool.not_eq_true']
    cases i.banned <;> cases i.jailed <;> cases i.status <;> simp
    by_cases h1 : i.lastPower = 0
    · simp [h1]
    · by_cases h2 : i.lotteryNo = 0 <;> simp [h1, h2]

theorem state_lucky {t : State} {a : Addr} : validatorState t a = .lucky ↔ ∃ i, t.records.get a = some i ∧ i.isActive = true ∧
    i.lastPower ≠ 0 ∧ i.lotteryNo ≠ 0 := by
  unfold validatorState
  cases t.records.get a with
  | none => simp
  | some i =>
    simp only [Option.some.injEq, exists_eq_left', Info.isActive, Bool.and_eq_true, Bool.not_eq_true']
    cases i.banned <;> cases i.jailed <;> cases i.status <;> simp
    by_cases h1 : i.lastPower = 0
    · simp [h1]
    · by_cases h2 : i.lotteryNo = 0 <;> simp [h1, h2]

theorem state_spare {t : State} {a : Addr} : validatorState t a = .spare ↔ ∃ i, t.records.get a = some i ∧ i.isActive = true ∧
    i.lastPower = 0 := by
  unfold validatorState
  cases t.records.get a with
  | none => simp
  | some i =>
    simp only [Option.some.injEq, exists_eq_left', Info.isActive, Bool.and_eq_true, Bool.not_eq_true']
    cases i.banned <;> cases i.jailed <;> cases i.status <;> simp
    by_cases h1 : i.lastPower = 0
    · simp [h1]
    · by_cases h2 : i.lotteryNo = 0 <;> simp [h1, h2]

theorem settle_active (i : Info) (o : Option Int) (n : Nat) : (settle i o n).isActive = i.isActive := rfl

/-- Records of active validators come from rows. -/
theorem Selection.of_record {e : Env} {s t : State} {top rest : List Row} (S : Selection e s t top rest) {a : Addr} {j : Info}
    (hj : t.records.get a = some j) (h : j.isActive = true ∨ j.lastPower ≠ 0) :
    ∃ x ∈ top ++ rest, x.acc = a ∧ j = settle x.info x.power x.no := by
  by_cases hin : a ∈ (top ++ rest).map Row.acc
  · obtain ⟨x, hx, rfl⟩ := List.mem_map.1 hin
    rw [S.row x hx] at hj; cases hj
    exact ⟨x, hx, rfl, rfl⟩
  · exfalso
    rw [S.other a hin] at hj
    cases hs : s.records.get a with
    | none => rw [hs] at hj; cases hj
    | some i =>
      rw [hs] at hj
      simp only [Option.map_some, Option.some.injEq] at hj
      subst hj
      rcases h with h | h
      · obtain ⟨x, hx, he, -⟩ := S.cover a i hs h
        exact hin (he ▸ List.mem_map_of_mem hx)
      · exact h rfl

theorem Selection.top_iff {e : Env} {s t : State} {top rest : List Row} (S : Selection e s t top rest) {a : Addr} :
    validatorState t a = .top ↔ a ∈ top.map Row.acc := by
  rw [state_top]
  constructor
  · rintro ⟨j, hj, ha, -, h0⟩
    obtain ⟨x, hx, rfl, rfl⟩ := S.of_record hj (Or.inl ha)
    rcases List.mem_append.1 hx with hx | hx
    · exact List.mem_map_of_mem hx
    · exact absurd h0 (S.ofRest x hx)
  · intro h
    obtain ⟨x, hx, rfl⟩ := List.mem_map.1 h
    have hx' := List.mem_append_left rest hx
    obtain ⟨h1, h2⟩ := S.ofTop x hx
    obtain ⟨p, hp⟩ := Option.isSome_iff_exists.1 h1
    refine ⟨_, S.row x hx', (S.mem x hx').2, ?_, h2⟩
    show x.power.getD 0 ≠ 0
    rw [hp]; exact (S.pos x hx' p hp).ne'

theorem Selection.lucky_iff {e : Env} {s t : State} {top rest : List Row} (S : Selection e s t top rest) {a : Addr} :
    validatorState t a = .lucky ↔ ∃ x ∈ rest, x.acc = a ∧ x.power.isSome = true := by
  rw [state_lucky]
  constructor
  · rintro ⟨j, hj, ha, hp, h0⟩
    obtain ⟨x, hx, rfl, rfl⟩ := S.of_record hj (Or.inl ha)
    rcases List.mem_append.1 hx with hx | hx
    · exact absurd (S.ofTop x hx).2 h0
    · refine ⟨x, hx, rfl, ?_⟩
      cases hxp : x.power with
      | none => exfalso; apply hp; show x.power.getD 0 = 0; rw [hxp]; rfl
      | some p => rfl
  · rintro ⟨x, hx, rfl, h1⟩
    have hx' := List.mem_append_right top hx
    obtain ⟨p, hp⟩ := Option.isSome_iff_exists.1 h1
    refine ⟨_, S.row x hx', (S.mem x hx').2, ?_, S.ofRest x hx⟩
    show x.power.getD 0 ≠ 0
    rw [hp]; exact (S.pos x hx' p hp).ne'

theorem Selection.spare_iff {e : Env} {s t : State} {top rest : List Row} (S : Selection e s t top rest) {a : Addr} :
    validatorState t a = .spare ↔ ∃ x ∈ rest, x.acc = a ∧ x.power = none := by
  rw [state_spare]
  constructor
  · rintro ⟨j, hj, ha, hp⟩
    obtain ⟨x, hx, rfl, rfl⟩ := S.of_record hj (Or.inl ha)
    have hn : x.power = none := by
      cases hxp : x.power with
      | none => rfl
      | some p =>
        exfalso
        have h0 : x.power.getD 0 = 0 := hp
        rw [hxp] at h0
        exact (S.pos x hx p hxp).ne' h0
    rcases List.mem_append.1 hx with hx | hx
    · have := (S.ofTop x hx).1; rw [hn] at this; cases this
    · exact ⟨x, hx, rfl, hn⟩
  · rintro ⟨x, hx, rfl, h1⟩
    have hx' := List.mem_append_right top hx
    refine ⟨_, S.row x hx', (S.mem x hx').2, ?_⟩
    show x.power.getD 0 = 0
    rw [h1]; rfl

theorem mem_take_of_le_last {q : KV Nat Addr} {n c : Nat} (hn : n ∈ q.keys) (h0 : n ≠ 0) (h : n ≤ lotteryLastNo q c) : n ∈ q.keys.take c := by
  by_contra hno
  have hsplit : n ∈ q.keys.take c ++ q.keys.drop c := by rw [List.take_append_drop]; exact hn
  rcases List.mem_append.1 hsplit with h1 | h1
  · exact hno h1
  · unfold lotteryLastNo at h
    cases hl : (q.keys.take c).getLast? with
    | none => rw [hl] at h; simp at h; exact h0 h
    | some m =>
      rw [hl] at h
      simp only [Option.getD_some] at h
      have hm : m ∈ q.keys.take c := List.mem_of_getLast? hl
      have hs := q.keys_sorted
      have e1 : q.keys = q.keys.take c ++ q.keys.drop c := (List.take_append_drop ..).symm
      rw [e1, List.pairwise_append] at hs
      have := hs.2.2 m hm n h1
      omega

theorem le_last_of_mem_take {q : KV Nat Addr} {n c : Nat} (h : n ∈ q.keys.take c) : n ≤ lotteryLastNo q c := by
  unfold lotteryLastNo
  cases hl : (q.keys.take c).getLast? with
  | none => rw [List.getLast?_eq_none_iff] at hl; rw [hl] at h; simp at h
  | some m =>
    simp only [Option.getD_some]
    obtain ⟨l, hl'⟩ := List.getLast?_eq_some_iff.1 hl
    have hs : (q.keys.take c).Pairwise (· < ·) := List.Pairwise.sublist (List.take_sublist c q.keys) q.keys_sorted
    rw [hl'] at h hs
    rw [List.pairwise_append] at hs
    rcases List.mem_append.1 h with h | h
    · have := hs.2.2 n h m (by simp); omega
    · simp only [List.mem_singleton] at h; omega

/-- With a sound queue there are at most as many lucky ones as the parameter says. -/
theorem lucky_le {e : Env} {s t : State} {u : List Upd} {top rest : List Row} {mid : State} (O : Outcome e s t u top rest mid)
    (S : Selection e s t top rest) (hl : Linked s) {l : List Addr} (hnd : l.Nodup) (h : ∀ a ∈ l, validatorState t a = .lucky) :
    l.length ≤ s.params.lotteryValidators := by
  have hm := O.midLinked hl
  have hsub : l.map (no mid) ⊆ mid.queue.keys.take (quota s.params (actives s).length).2 := by
    intro n hn
    obtain ⟨a, ha, rfl⟩ := List.mem_map.1 hn
    obtain ⟨x, hx, rfl, hp⟩ := S.lucky_iff.1 (h a ha)
    obtain ⟨c1, c2, -, -⟩ := O.ofRest x hx
    have hcond : x.info.lotteryNo ≠ 0 ∧ x.info.lotteryNo ≤ lotteryLastNo mid.queue (quota s.params (actives s).length).2 := by
      by_contra hc
      rw [c2 hc] at hp; cases hp
    have hno : no mid x.acc = x.info.lotteryNo := by
      rw [O.midNo, if_neg, no_eq (S.mem x (List.mem_append_right _ hx)).1]
      intro hin
      have := S.nodup
      rw [List.map_append, List.nodup_append] at this
      exact this.2.2 _ hin _ (List.mem_map_of_mem hx) rfl
    rw [hno]
    refine mem_take_of_le_last ?_ hcond.1 hcond.2
    exact KV.mem_keys.2 ⟨x.acc, by rw [← hno]; exact hm.bwd x.acc (by rw [hno]; exact hcond.1)⟩
  have hnd2 : (l.map (no mid)).Nodup := by
    refine List.Nodup.map_on ?_ hnd
    intro a ha b hb hab
    obtain ⟨x, hx, rfl, hp⟩ := S.lucky_iff.1 (h a ha)
    have hn : no mid x.acc ∈ mid.queue.keys := List.mem_of_mem_take (hsub (List.mem_map_of_mem ha))
    obtain ⟨c, hc⟩ := KV.mem_keys.1 hn
    have h0 := (hm.fwd _ _ hc).1
    have e1 := hm.bwd x.acc h0
    have e2 := hm.bwd b (by rw [← hab]; exact h0)
    rw [← hab, e1] at e2
    exact Option.some.inj e2
  have := (hnd2.subperm hsub).length_le
  rw [List.length_map, List.length_take] at this
  have h2 := (quota_fst_le s.params (actives s).length).2.2
  omega

/-- Among those who stood in the queue, the lucky ones stood before the spare ones. -/
theorem lucky_before {e : Env} {s t : State} {u : List Upd} {top rest : List Row} {mid : State} (O : Outcome e s t u top rest mid)
    (S : Selection e s t top rest) {a b : Addr} (ha : validatorState t a = .lucky) (hb : validatorState t b = .spare) (h0 : no s b ≠ 0) :
    no s a ≠ 0 ∧ no s a < no s b := by
  obtain ⟨x, hx, rfl, hp⟩ := S.lucky_iff.1 ha
  obtain ⟨y, hy, rfl, hq⟩ := S.spare_iff.1 hb
  obtain ⟨-, c2, -, -⟩ := O.ofRest x hx
  obtain ⟨d1, -, -, -⟩ := O.ofRest y hy
  rw [no_eq (S.mem x (List.mem_append_right _ hx)).1]
  rw [no_eq (S.mem y (List.mem_append_right _ hy)).1] at h0 ⊢
  have hc : x.info.lotteryNo ≠ 0 ∧ x.info.lotteryNo ≤ lotteryLastNo mid.queue (quota s.params (actives s).length).2 := by
    by_contra hc
    rw [c2 hc] at hp; cases hp
  refine ⟨hc.1, ?_⟩
  by_contra hle
  have := d1 ⟨h0, by omega⟩
  rw [hq] at this; cases this

end Verif.Noding
