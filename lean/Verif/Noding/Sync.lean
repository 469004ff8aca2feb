import Verif.Noding.Engine

/-! Every operation keeps the records and the engine's validator set in step; the selection never fails. -/
namespace Verif.Noding
open Verif.Util

/-- A predicate that looks at the last power and the last key only. -/
def LastOnly (P : Info → Prop) : Prop := ∀ i j : Info, P i → i.lastPower = j.lastPower → i.lastPubKey = j.lastPubKey → P j

theorem leave_last (q : KV Nat Addr) (i : Info) : (leaveQueue q i).2.lastPower = i.lastPower ∧ (leaveQueue q i).2.lastPubKey = i.lastPubKey := by
  unfold leaveQueue lotteryExclude; split <;> exact ⟨rfl, rfl⟩

theorem move_last (q : KV Nat Addr) (a : Addr) (i : Info) :
    (moveBack q a i).2.lastPower = i.lastPower ∧ (moveBack q a i).2.lastPubKey = i.lastPubKey := by
  unfold moveBack lotteryDownshift lotteryAddNew lotteryExclude; split <;> exact ⟨rfl, rfl⟩

theorem LastOnly.leave {P : Info → Prop} (hc : LastOnly P) (q : KV Nat Addr) {i : Info} (h : P i) : P (leaveQueue q i).2 :=
  hc _ _ h (leave_last q i).1.symm (leave_last q i).2.symm

theorem LastOnly.move {P : Info → Prop} (hc : LastOnly P) (q : KV Nat Addr) (a : Addr) {i : Info} (h : P i) : P (moveBack q a i).2 :=
  hc _ _ h (move_last q a i).1.symm (move_last q a i).2.symm

theorem switchOff_has {P : Info → Prop} (hc : LastOnly P) {s t : State} {a b : Addr} (h : switchOff s a = some t) (hs : Has P s b) : Has P t b := by
  refine hs.update h ?_
  intro q i _ _ hp
  split
  · exact hc.leave q (hc _ _ hp rfl rfl)
  · exact hp

theorem statusUpdate_has {P : Info → Prop} (hc : LastOnly P) {e : Env} {s t : State} {a b : Addr} (h : onStatusUpdate e s a = some t)
    (hs : Has P s b) : Has P t b := by
  rcases onStatusUpdate_some h with rfl | ⟨-, -, h⟩
  · exact hs
  · exact switchOff_has hc h hs

theorem stakeChanged_has {P : Info → Prop} (hc : LastOnly P) {e : Env} {s t : State} {a b : Addr} (h : onStakeChanged e s a = some t)
    (hs : Has P s b) : Has P t b := by
  rcases onStakeChanged_some h with rfl | ⟨i, q, st, hi, -, -, ⟨-, -, rfl⟩ | ⟨-, rfl⟩⟩
  · exact hs
  · exact hs
  · exact hs.set (a := a) _ rfl (fun i' _ hi' hp => by rw [hi] at hi'; cases hi'; exact hc _ _ hp rfl rfl)

/-- Only the selection touches the last power and the last key. -/
theorem run_last {P : Info → Prop} (hc : LastOnly P) (e : Env) (s : State) {op : Op} (ho : op ≠ .gather) {b : Addr} (hs : Has P s b) :
    Has P (op.run e s) b := by
  cases op with
  | switchOn a k =>
    refine hs.getD fun t h => ?_
    obtain ⟨-, -, -, q, st, -, -, -, rfl⟩ := switchOn_some h
    refine hs.set (a := a) _ rfl ?_
    intro i _ hi hp
    rw [hi]
    exact hc _ _ hp rfl rfl
  | switchOff a => exact hs.getD fun t h => switchOff_has hc h hs
  | unjail a =>
    refine hs.getD fun t h => ?_
    obtain ⟨i, q, hi, -, -, -, ⟨-, st, -, rfl⟩ | ⟨-, rfl⟩⟩ := unjail_some h
    · exact hs.set (a := a) _ rfl (fun i' _ hi' hp => by rw [hi] at hi'; cases hi'; exact hc _ _ hp rfl rfl)
    · exact hs.set (a := a) _ rfl (fun i' _ hi' hp => by rw [hi] at hi'; cases hi'; exact hc _ _ hp rfl rfl)
  | statusUpdate a => exact hs.getD fun t h => statusUpdate_has hc h hs
  | stakeChanged a => exact hs.getD fun t h => stakeChanged_has hc h hs
  | proposed a =>
    refine hs.getD fun t h => ?_
    exact Has.update (s := { s with proposers := s.proposers.set (e.height - 1) a }) h
      (fun q i _ _ hp => hc.move _ _ (hc i _ hp rfl rfl)) hs
  | tick a =>
    refine hs.getD fun t h => hs.update h ?_
    intro q i _ _ hp
    dsimp only
    split <;> exact hc _ _ hp rfl rfl
  | stroke a =>
    refine hs.getD fun t h => hs.update h ?_
    intro q i _ _ hp
    dsimp only
    split
    · exact hp
    · split
      · exact hc.leave _ (hc _ _ hp rfl rfl)
      · exact hc.move _ _ (hc _ _ hp rfl rfl)
  | byzantine a =>
    refine hs.getD fun t h => hs.update h ?_
    intro q i _ _ hp
    dsimp only
    split
    · exact hc.leave _ (hc _ _ hp rfl rfl)
    · exact hc.move _ _ (hc _ _ hp rfl rfl)
  | addStaff a =>
    show Has P (addToStaff s a) b
    unfold addToStaff
    cases hg : s.records.get a with
    | some j => exact hs.set (a := a) _ rfl (fun i' _ hi' hp => by rw [hg] at hi'; cases hi'; exact hc _ _ hp rfl rfl)
    | none => exact hs.set (a := a) _ rfl (fun i' _ hi' hp => by rw [hg] at hi'; cases hi')
  | removeStaff a =>
    show Has P (removeFromStaff e s a) b
    rcases removeFromStaff_cases e s a with h | ⟨i, hi, -, s1, h1, h⟩
    · rw [h]; exact hs
    · have g1 : Has P s1 b := by
        rw [h1]
        exact hs.set (a := a) _ rfl (fun i' _ hi' hp => by rw [hi] at hi'; cases hi'; exact hc _ _ hp rfl rfl)
      rcases h with h | ⟨-, s2, h2, h⟩
      · rw [h]; exact g1
      · have g2 := statusUpdate_has hc h2 g1
        rcases h with h | h
        · rw [h]; exact g2
        · exact stakeChanged_has hc h g2
  | amnesty =>
    obtain ⟨i, hi, hp⟩ := hs
    refine ⟨i.amnesty, by show (generalAmnesty s).records.get b = _; rw [amnesty_get, hi]; rfl, ?_⟩
    unfold Info.amnesty
    split
    · exact hp
    · exact hc _ _ hp rfl rfl
  | setParams p =>
    refine hs.getD fun t h => ?_
    unfold setParams at h
    split at h
    · simp only [Option.some.injEq] at h; subst h; exact hs
    · simp at h
  | gather => exact absurd rfl ho

/-- A record that appears is a fresh one. -/
def Fresh (b : Addr) (op : Op) (j : Info) : Prop :=
  j.lastPower = 0 ∧ j.lastPubKey = 0 ∧ j.lotteryNo = 0 ∧ j.jailed = false ∧ j.banned = false ∧ j.missed = 0 ∧
    ((∃ k, op = .switchOn b k ∧ j.pubKey = k ∧ k ≠ 0) ∨ (op = .addStaff b ∧ j.pubKey = 0 ∧ j.status = false))

theorem none_update {s t : State} {a b : Addr} {f : KV Nat Addr → Info → KV Nat Addr × Info} (h : update s a f = some t)
    (hb : s.records.get b = none) : t.records.get b = none := by
  rw [update_records h]
  split
  · rename_i e; subst e; rw [hb]; rfl
  · exact hb

theorem none_getD {s : State} {b : Addr} {o : Option State} (hb : s.records.get b = none)
    (h : ∀ t, o = some t → t.records.get b = none) : (o.getD s).records.get b = none := by
  cases o with
  | none => exact hb
  | some t => exact h t rfl

theorem none_statusUpdate {e : Env} {s t : State} {a b : Addr} (h : onStatusUpdate e s a = some t) (hb : s.records.get b = none) :
    t.records.get b = none := by
  rcases onStatusUpdate_some h with rfl | ⟨-, -, h⟩
  · exact hb
  · exact none_update h hb

theorem none_set {m : KV Addr Info} {a b : Addr} {i j : Info} (hi : m.get a = some i) (hb : m.get b = none) : (m.set a j).get b = none := by
  rw [KV.get_set_ne]; · exact hb
  rintro rfl; rw [hi] at hb; cases hb

theorem none_stakeChanged {e : Env} {s t : State} {a b : Addr} (h : onStakeChanged e s a = some t) (hb : s.records.get b = none) :
    t.records.get b = none := by
  rcases onStakeChanged_some h with rfl | ⟨i, q, st, hi, -, -, ⟨-, -, rfl⟩ | ⟨-, rfl⟩⟩
  · exact hb
  · exact hb
  · exact none_set hi hb

theorem run_fresh (e : Env) (s : State) (op : Op) {b : Addr} (hb : s.records.get b = none) :
    (op.run e s).records.get b = none ∨ ∃ j, (op.run e s).records.get b = some j ∧ Fresh b op j := by
  cases op with
  | switchOn a k =>
    show ((switchOn e s a k).getD s).records.get b = none ∨ _
    cases h : switchOn e s a k with
    | none => exact Or.inl hb
    | some t =>
      obtain ⟨hk, -, -, q, st, -, -, -, rfl⟩ := switchOn_some h
      by_cases hab : b = a
      · subst hab
        refine Or.inr ⟨newInfo e.log k st, ?_, ?_⟩
        · show ((switchOn e s b k).getD s).records.get b = _
          rw [h]; simp only [Option.getD_some, register_get, if_true, hb]; rfl
        · exact ⟨rfl, rfl, rfl, rfl, rfl, rfl, Or.inl ⟨k, rfl, rfl, hk⟩⟩
      · left
        simp only [Option.getD_some, register_get, if_neg hab, hb]
  | switchOff a => exact Or.inl (none_getD hb fun t h => none_update h hb)
  | unjail a =>
    refine Or.inl (none_getD hb fun t h => ?_)
    obtain ⟨i, q, hi, -, -, -, ⟨-, st, -, rfl⟩ | ⟨-, rfl⟩⟩ := unjail_some h
    · exact none_set hi hb
    · exact none_set hi hb
  | statusUpdate a => exact Or.inl (none_getD hb fun t h => none_statusUpdate h hb)
  | stakeChanged a => exact Or.inl (none_getD hb fun t h => none_stakeChanged h hb)
  | proposed a => exact Or.inl (none_getD hb fun t h => none_update (s := { s with proposers := s.proposers.set (e.height - 1) a }) h hb)
  | tick a => exact Or.inl (none_getD hb fun t h => none_update h hb)
  | stroke a => exact Or.inl (none_getD hb fun t h => none_update h hb)
  | byzantine a => exact Or.inl (none_getD hb fun t h => none_update h hb)
  | addStaff a =>
    by_cases hab : b = a
    · subst hab
      refine Or.inr ⟨{ staff := true }, ?_, ⟨rfl, rfl, rfl, rfl, rfl, rfl, Or.inr ⟨rfl, rfl, rfl⟩⟩⟩
      show (addToStaff s b).records.get b = _
      unfold addToStaff
      simp only [hb, KV.get_set_self]
    · left
      show (addToStaff s a).records.get b = _
      unfold addToStaff
      split <;> simp only [KV.get_set_ne _ _ hab, hb]
  | removeStaff a =>
    left
    show (removeFromStaff e s a).records.get b = none
    rcases removeFromStaff_cases e s a with h | ⟨i, hi, -, s1, h1, h⟩
    · rw [h]; exact hb
    · have g1 : s1.records.get b = none := by rw [h1]; exact none_set hi hb
      rcases h with h | ⟨-, s2, h2, h⟩
      · rw [h]; exact g1
      · have g2 := none_statusUpdate h2 g1
        rcases h with h | h
        · rw [h]; exact g2
        · exact none_stakeChanged h g2
  | amnesty => left; show (generalAmnesty s).records.get b = none; rw [amnesty_get, hb]; rfl
  | setParams p =>
    refine Or.inl (none_getD hb fun t h => ?_)
    unfold setParams at h
    split at h
    · simp only [Option.some.injEq] at h; subst h; exact hb
    · simp at h
  | gather =>
    left
    show (((gather e s).map Prod.fst).getD s).records.get b = none
    cases h : gather e s with
    | none => exact hb
    | some x =>
      obtain ⟨t, u⟩ := x
      have := gather_core h b
      simp only [field, hb, Option.map_none] at this
      simpa using this

theorem run_params (e : Env) (s : State) (op : Op) : (op.run e s).params = s.params ∨
    ∃ p, op = .setParams p ∧ p.validate? = some true ∧ (op.run e s).params = p := by
  have hget : ∀ (o : Option State), (∀ t, o = some t → t.params = s.params) → (o.getD s).params = s.params := by
    intro o h; cases o with
    | none => rfl
    | some t => exact h t rfl
  have hupd : ∀ {s t : State} {a : Addr} {f : KV Nat Addr → Info → KV Nat Addr × Info}, update s a f = some t → t.params = s.params := by
    intro s t a f h; obtain ⟨i, -, rfl⟩ := update_eq.1 h; rfl
  have hst : ∀ {s t : State} {a : Addr}, onStatusUpdate e s a = some t → t.params = s.params := by
    intro s t a h
    rcases onStatusUpdate_some h with rfl | ⟨-, -, h⟩
    · rfl
    · exact hupd h
  have hsk : ∀ {s t : State} {a : Addr}, onStakeChanged e s a = some t → t.params = s.params := by
    intro s t a h
    rcases onStakeChanged_some h with rfl | ⟨i, q, st, hi, -, -, ⟨-, -, rfl⟩ | ⟨-, rfl⟩⟩ <;> rfl
  cases op with
  | switchOn a k => left; refine hget _ fun t h => ?_; obtain ⟨-, -, -, q, st, -, -, -, rfl⟩ := switchOn_some h; rfl
  | switchOff a => exact Or.inl (hget _ fun t h => hupd h)
  | unjail a => left; refine hget _ fun t h => ?_; obtain ⟨i, q, hi, -, -, -, ⟨-, st, -, rfl⟩ | ⟨-, rfl⟩⟩ := unjail_some h <;> rfl
  | statusUpdate a => exact Or.inl (hget _ fun t h => hst h)
  | stakeChanged a => exact Or.inl (hget _ fun t h => hsk h)
  | proposed a => exact Or.inl (hget _ fun t h => hupd (s := { s with proposers := s.proposers.set (e.height - 1) a }) h)
  | tick a => exact Or.inl (hget _ fun t h => hupd h)
  | stroke a => exact Or.inl (hget _ fun t h => hupd h)
  | byzantine a => exact Or.inl (hget _ fun t h => hupd h)
  | addStaff a => left; show (addToStaff s a).params = _; unfold addToStaff; split <;> rfl
  | removeStaff a =>
    left
    show (removeFromStaff e s a).params = _
    rcases removeFromStaff_cases e s a with h | ⟨i, hi, -, s1, h1, h⟩
    · rw [h]
    · have g1 : s1.params = s.params := by rw [h1]
      rcases h with h | ⟨-, s2, h2, h⟩
      · rw [h]; exact g1
      · have g2 := (hst h2).trans g1
        rcases h with h | h
        · rw [h]; exact g2
        · exact (hsk h).trans g2
  | amnesty => exact Or.inl rfl
  | setParams p =>
    show ((setParams s p).getD s).params = _ ∨ _
    unfold setParams
    split
    · rename_i h
      refine Or.inr ⟨p, rfl, h, ?_⟩
      show ((setParams s p).getD s).params = _
      rw [setParams, if_pos h]; rfl
    · exact Or.inl rfl
  | gather =>
    left
    show (((gather e s).map Prod.fst).getD s).params = _
    cases h : gather e s with
    | none => rfl
    | some x =>
      simp only [gather, Option.bind_eq_bind, Option.bind_eq_some_iff, Option.some.injEq] at h
      obtain ⟨sc, h1, w1, h2, w2, h3, rfl⟩ := h
      have hu : ∀ {s t : State} {a : Addr} {f : KV Nat Addr → Info → KV Nat Addr × Info}, update s a f = some t → t.params = s.params := hupd
      have e1 := foldOpt_keep (P := fun x : State × List Upd => x.1.params = s.params) (fun x r y _ hx hy => by
        unfold scanStep at hy
        split at hy
        · simp only [Option.bind_eq_bind, Option.bind_eq_some_iff, Option.some.injEq] at hy
          obtain ⟨k, -, rfl⟩ := hy; exact hx
        · split at hy
          · simp only [Option.bind_eq_bind, Option.bind_eq_some_iff, Option.some.injEq] at hy
            obtain ⟨k, -, s', hs, rfl⟩ := hy
            exact (hu hs).trans hx
          · simp only [Option.some.injEq] at hy; rw [← hy]; exact hx) rfl h1
      have e2 := foldOpt_keep (P := fun x : Work => x.s.params = s.params) (fun x r y _ hx hy => by
        unfold topStep at hy
        dsimp only at hy
        split at hy
        · simp at hy
        · simp only [Option.bind_eq_bind, Option.bind_eq_some_iff] at hy
          obtain ⟨⟨p, g⟩, -, hy⟩ := hy
          dsimp only at hy
          split at hy
          · simp only [Option.bind_eq_some_iff, Option.some.injEq] at hy
            obtain ⟨s', hs, rfl⟩ := hy
            exact (hu hs).trans hx
          · simp only [Option.some.injEq] at hy; rw [← hy]; exact hx) e1 h2
      exact foldOpt_keep (P := fun x : Work => x.s.params = s.params) (fun x r y _ hx hy => by
        unfold restStep at hy
        dsimp only at hy
        split at hy
        · simp only [Option.bind_eq_bind, Option.bind_eq_some_iff] at hy
          obtain ⟨⟨p, g⟩, -, hy⟩ := hy
          dsimp only at hy
          split at hy
          · simp only [Option.bind_eq_some_iff, Option.some.injEq] at hy
            obtain ⟨k, -, s', hs, rfl⟩ := hy
            exact (hu hs).trans hx
          · simp only [Option.some.injEq] at hy; rw [← hy]; exact hx
        · simp only [Option.bind_eq_bind, Option.bind_eq_some_iff] at hy
          obtain ⟨o, -, hy⟩ := hy
          split at hy
          · simp only [Option.bind_eq_some_iff, Option.some.injEq] at hy
            obtain ⟨s', hs, rfl⟩ := hy
            exact (hu hs).trans hx
          · simp only [Option.some.injEq] at hy; rw [← hy]; exact hx) e2 h3

/-- Keys and switches of an existing record: only a successful switch-on changes the first or turns on the second. -/
theorem run_keys (e : Env) (s : State) (op : Op) {b : Addr} {i : Info} (hi : s.records.get b = some i) :
    ∃ j, (op.run e s).records.get b = some j ∧ ((j.pubKey = i.pubKey ∧ (j.status = true → i.status = true)) ∨
      ∃ k, op = .switchOn b k ∧ k ≠ 0 ∧ j.pubKey = k) := by
  by_cases hz : ∃ a, op = .switchOn a 0
  · obtain ⟨a, rfl⟩ := hz
    refine ⟨i, ?_, Or.inl ⟨rfl, id⟩⟩
    show ((switchOn e s a 0).getD s).records.get b = _
    simp only [switchOn, if_true, Option.getD_none]; exact hi
  obtain ⟨j, hj, h⟩ := run_change e s op hi
  refine ⟨j, hj, ?_⟩
  rcases h with h | ⟨j', hc, h⟩
  · have := core_fields h
    exact Or.inl ⟨this.2.1, fun hs => this.1 ▸ hs⟩
  · have hf := core_fields h
    cases hc with
    | on i k stake hb hs => exact Or.inr ⟨k, rfl, fun hk => hz ⟨b, by rw [hk]⟩, hf.2.1⟩
    | off | demoted | banned | releasedOff => exact Or.inl ⟨hf.2.1, fun hs => absurd (hf.1 ▸ hs) (by simp)⟩
    | unstaffed i st sc hst => exact Or.inl ⟨hf.2.1, fun hs => hst (by rw [hf.1] at hs; exact hs)⟩
    | pardoned i =>
      refine Or.inl ⟨?_, ?_⟩
      · rw [hf.2.1]; unfold Info.amnesty; split <;> rfl
      · rw [hf.1]; unfold Info.amnesty; split <;> exact id
    | _ => exact Or.inl ⟨hf.2.1, fun hs => by rw [hf.1] at hs; exact hs⟩

/-- Everything but the selection leaves records and engine in step, if keys are used by their owners only. -/
theorem Synced.step {owner : PubKey → Addr} {e : Env} {s : State} {E : Engine} {op : Op} (h : Synced owner s E) (ho : op ≠ .gather)
    (hk : ∀ a k, op = .switchOn a k → owner k = a) : Synced owner (op.run e s) E := by
  have hrec : ∀ b j, (op.run e s).records.get b = some j →
      (∃ i, s.records.get b = some i ∧ j.lastPower = i.lastPower ∧ j.lastPubKey = i.lastPubKey ∧
        ((j.pubKey = i.pubKey ∧ (j.status = true → i.status = true)) ∨ (j.pubKey ≠ 0 ∧ owner j.pubKey = b))) ∨
      (s.records.get b = none ∧ j.lastPower = 0 ∧ j.lastPubKey = 0 ∧
        ((j.pubKey ≠ 0 ∧ owner j.pubKey = b) ∨ (j.pubKey = 0 ∧ j.status = false))) := by
    intro b j hj
    cases hg : s.records.get b with
    | some i =>
      left
      refine ⟨i, rfl, ?_⟩
      obtain ⟨j1, h1, h2⟩ := run_keys e s op hg
      rw [hj] at h1; cases h1
      obtain ⟨j2, h3, h4, h5⟩ := run_last (P := fun x => x.lastPower = i.lastPower ∧ x.lastPubKey = i.lastPubKey)
        (fun x y hp hx hy => ⟨hx ▸ hp.1, hy ▸ hp.2⟩) e s ho ⟨i, hg, rfl, rfl⟩
      rw [hj] at h3; cases h3
      refine ⟨h4, h5, ?_⟩
      rcases h2 with h2 | ⟨k, h6, h7, rfl⟩
      · exact Or.inl h2
      · exact Or.inr ⟨h7, hk b _ h6⟩
    | none =>
      right
      rcases run_fresh e s op hg with h1 | ⟨j1, h1, h2⟩
      · rw [hj] at h1; cases h1
      · rw [hj] at h1; cases h1
        refine ⟨rfl, h2.1, h2.2.1, ?_⟩
        rcases h2.2.2.2.2.2.2 with ⟨k, h3, rfl, h5⟩ | ⟨-, h3, h4⟩
        · exact Or.inl ⟨h5, hk b _ h3⟩
        · exact Or.inr ⟨h3, h4⟩
  refine ⟨?_, ?_, ?_, ?_, ?_, ?_⟩
  · intro b j hj
    rcases hrec b j hj with ⟨i, hi, h1, h2, -⟩ | ⟨-, h1, h2, -⟩
    · have := h.clean b i hi
      unfold Clean at this ⊢
      rw [h1, h2]; exact this
    · unfold Clean; rw [h1, h2]; simp
  · intro b j hj h0
    rcases hrec b j hj with ⟨i, hi, h1, h2, -⟩ | ⟨-, h1, h2, -⟩
    · rw [h2] at h0 ⊢; exact h.last b i hi h0
    · exact absurd h2 h0
  · intro b j hj h0
    rcases hrec b j hj with ⟨i, hi, -, -, ⟨h1, -⟩ | ⟨-, h1⟩⟩ | ⟨-, -, -, ⟨-, h1⟩ | ⟨h1, -⟩⟩
    · rw [h1] at h0 ⊢; exact h.key b i hi h0
    · exact h1
    · exact h1
    · exact absurd h1 h0
  · intro b j hj h0
    rcases hrec b j hj with ⟨i, hi, -, -, ⟨h1, h2⟩ | ⟨h1, -⟩⟩ | ⟨-, -, -, ⟨h1, -⟩ | ⟨-, h1⟩⟩
    · rw [h1]; exact h.on b i hi (h2 h0)
    · exact h1
    · exact h1
    · rw [h0] at h1; cases h1
  · rcases run_params e s op with h1 | ⟨p, -, h1, h2⟩
    · rw [h1]; exact h.params
    · rw [h2]; exact h1
  · intro k p
    rw [h.engine]
    refine and_congr_right fun hk0 => ?_
    constructor
    · rintro ⟨i, hi, h1, h2⟩
      obtain ⟨j, h3, h4, h5⟩ := run_last (P := fun x => x.lastPower = p ∧ x.lastPubKey = k)
        (fun x y hp hx hy => ⟨hx ▸ hp.1, hy ▸ hp.2⟩) e s ho ⟨i, hi, h2, h1⟩
      exact ⟨j, h3, h5, h4⟩
    · rintro ⟨j, hj, h1, h2⟩
      rcases hrec _ j hj with ⟨i, hi, h3, h4, -⟩ | ⟨-, h3, h4, -⟩
      · exact ⟨i, hi, h4 ▸ h1, h3 ▸ h2⟩
      · exact absurd (h1.symm.trans h4) hk0

/-! ## The selection never fails -/

theorem foldOpt_total {α β : Type} {f : α → β → Option α} {P : α → Prop} {l : List β}
    (h : ∀ a b, b ∈ l → P a → ∃ c, f a b = some c ∧ P c) : ∀ {a : α}, P a → ∃ c, foldOpt f a l = some c ∧ P c := by
  induction l with
  | nil => intro a ha; exact ⟨a, rfl, ha⟩
  | cons b l ih =>
    intro a ha
    obtain ⟨c, h1, h2⟩ := h a b (List.mem_cons_self ..) ha
    obtain ⟨d, h3, h4⟩ := ih (fun a b hb => h a b (List.mem_cons_of_mem _ hb)) h2
    exact ⟨d, foldOpt_cons.2 ⟨c, h1, h3⟩, h4⟩

theorem update_total {s : State} {a : Addr} {i : Info} (f : KV Nat Addr → Info → KV Nat Addr × Info) (h : s.records.get a = some i) :
    ∃ t, update s a f = some t ∧ t.params = s.params ∧ ∀ b, (s.records.get b).isSome = true → (t.records.get b).isSome = true := by
  refine ⟨_, update_eq.2 ⟨i, h, rfl⟩, rfl, ?_⟩
  intro b hb
  simp only [KV.get_set]
  split
  · rfl
  · exact hb

/-- What the loops need. -/
structure Ready (p : Params) (dom : Addr → Prop) (w : Work) : Prop where
  params : w.s.params = p
  gen : w.gen = {} ∨ GenOk p.votingPower w.gen
  recs : ∀ a, dom a → (w.s.records.get a).isSome = true

theorem Ready.next {p : Params} {dom : Addr → Prop} {w : Work} (h : Ready p dom w) (hmax : 0 < p.maxValidators) (hd : DistrOk p.votingPower)
    (score : Int) : ∃ q g, w.gen.next? w.s.params.maxValidators w.s.params.votingPower score = some (q, g) ∧ GenOk p.votingPower g := by
  rw [h.params]
  rcases h.gen with h0 | h0
  · rw [h0]
    obtain ⟨q, g, h1, h2, -⟩ := next?_first hd hmax score
    exact ⟨q, g, h1, h2⟩
  · obtain ⟨q, g, h1, h2, -⟩ := next?_later hd (max := p.maxValidators) h0 score
    exact ⟨q, g, h1, h2⟩

theorem gather_total {e : Env} {s : State} (hsort : SortOk e.sort) (hclean : ∀ a i, s.records.get a = some i → Clean i)
    (hkey : ∀ a i, s.records.get a = some i → i.isActive = true → i.pubKey ≠ 0) (hp : s.params.validate? = some true) :
    ∃ t u, gather e s = some (t, u) := by
  obtain ⟨hmax, -, hd⟩ := params_ok hp
  have hget : ∀ {m : KV Addr Info} {a : Addr}, (m.get a).isSome = true → ∃ i, m.get a = some i := fun h => Option.isSome_iff_exists.1 h
  obtain ⟨sc, h1, h1p, h1r⟩ := foldOpt_total (f := scanStep) (l := s.records.entries)
    (P := fun x => x.1.params = s.params ∧ ∀ a, (s.records.get a).isSome = true → (x.1.records.get a).isSome = true) (a := (s, []))
    (by
      rintro x r hr ⟨hx1, hx2⟩
      have hg := KV.mem_entries.1 hr
      unfold scanStep
      split
      · rename_i ha
        have hk := hkey _ _ hg ha
        simp only [key?, if_neg hk, Option.bind_eq_bind, Option.bind_some]
        exact ⟨_, rfl, hx1, hx2⟩
      · split
        · rename_i hl
          have hk : r.2.lastPubKey ≠ 0 := fun h0 => hl ((hclean _ _ hg).2 h0)
          simp only [key?, if_neg hk, Option.bind_eq_bind, Option.bind_some]
          obtain ⟨i, hi⟩ := hget (hx2 r.1 (by rw [hg]; rfl))
          obtain ⟨t, ht1, ht2, ht3⟩ := update_total (fun q i => (q, { i with lastPower := 0, lastPubKey := 0 })) hi
          rw [ht1]
          exact ⟨_, rfl, ht2.trans hx1, fun a ha => ht3 a (hx2 a ha)⟩
        · exact ⟨_, rfl, hx1, hx2⟩) ⟨rfl, fun _ h => h⟩
  have hperm := hsort.perm (actives s)
  have hmem : ∀ r ∈ e.sort (actives s), s.records.get r.1 = some r.2 ∧ r.2.isActive = true := by
    intro r hr
    have := hperm.mem_iff.1 hr
    simp only [actives, List.mem_filter] at this
    exact ⟨KV.mem_entries.1 this.1, this.2⟩
  set dom : Addr → Prop := fun a => (s.records.get a).isSome = true
  obtain ⟨w1, h2, r1⟩ := foldOpt_total (f := topStep) (l := (e.sort (actives s)).take (quota s.params (e.sort (actives s)).length).1)
    (P := Ready s.params dom) (a := ⟨sc.1, {}, sc.2⟩)
    (by
      intro w r hr hw
      obtain ⟨hg, ha⟩ := hmem r (List.mem_of_mem_take hr)
      obtain ⟨q, g, hq, hg'⟩ := hw.next hmax hd r.2.score
      unfold topStep
      simp only [if_neg (hkey _ _ hg ha), hq, Option.bind_eq_bind, Option.bind_some]
      split
      · obtain ⟨i, hi⟩ := hget (hw.recs r.1 (by show (s.records.get r.1).isSome = true; rw [hg]; rfl))
        obtain ⟨t, ht1, ht2, ht3⟩ := update_total (s := { w.s with queue := (leaveQueue w.s.queue r.2).1 })
          (fun q' d => (q', { d with lastPower := q, lastPubKey := d.pubKey, lotteryNo := (leaveQueue w.s.queue r.2).2.lotteryNo })) hi
        rw [ht1]
        exact ⟨_, rfl, ht2.trans hw.params, Or.inr hg', fun a ha => ht3 a (hw.recs a ha)⟩
      · exact ⟨_, rfl, hw.params, Or.inr hg', hw.recs⟩) ⟨h1p, Or.inl rfl, h1r⟩
  obtain ⟨w2, h3, -⟩ := foldOpt_total
    (f := restStep (lotteryLastNo w1.s.queue (quota s.params (e.sort (actives s)).length).2))
    (l := (e.sort (actives s)).drop (quota s.params (e.sort (actives s)).length).1) (P := Ready s.params dom)
    (by
      intro w r hr hw
      obtain ⟨hg, ha⟩ := hmem r (List.mem_of_mem_drop hr)
      obtain ⟨i, hi⟩ := hget (hw.recs r.1 (by show (s.records.get r.1).isSome = true; rw [hg]; rfl))
      unfold restStep
      dsimp only
      split
      · obtain ⟨q, g, hq, hg'⟩ := hw.next hmax hd r.2.score
        simp only [hq, Option.bind_eq_bind, Option.bind_some]
        split
        · simp only [key?, if_neg (hkey _ _ hg ha), Option.bind_some]
          obtain ⟨t, ht1, ht2, ht3⟩ := update_total (s := w.s) (fun q' d => (q', { d with lastPower := q, lastPubKey := d.pubKey })) hi
          rw [ht1]
          exact ⟨_, rfl, ht2.trans hw.params, Or.inr hg', fun a ha => ht3 a (hw.recs a ha)⟩
        · exact ⟨_, rfl, hw.params, Or.inr hg', hw.recs⟩
      · obtain ⟨gone, hgone⟩ : ∃ g, removal? r.2 = some g := by
          unfold removal?
          split
          · rename_i hl
            have hk : r.2.lastPubKey ≠ 0 := fun h0 => hl ((hclean _ _ hg).2 h0)
            simp only [key?, if_neg hk, Option.map_some]
            exact ⟨_, rfl⟩
          · exact ⟨_, rfl⟩
        simp only [hgone, Option.bind_eq_bind, Option.bind_some]
        generalize (if r.2.lotteryNo = 0 then lotteryAddNew w.s.queue r.1 r.2 else (w.s.queue, r.2)) = joined
        split
        · obtain ⟨t, ht1, ht2, ht3⟩ := update_total (s := { w.s with queue := joined.1 })
            (fun q d => (q, { d with lastPower := 0, lastPubKey := 0, lotteryNo := joined.2.lotteryNo })) hi
          rw [ht1]
          exact ⟨_, rfl, ht2.trans hw.params, hw.gen, fun a ha => ht3 a (hw.recs a ha)⟩
        · exact ⟨_, rfl, hw.params, hw.gen, hw.recs⟩) r1
  refine ⟨w2.s, dedupe pointerEq w2.out, ?_⟩
  simp only [gather, h1, h2, h3, Option.bind_eq_bind, Option.bind_some]

/-! ## Executions together with the engine -/

/-- An execution seen from the engine: at every block end it receives the updates; `none` = the chain stops, because the selection
fails or the engine rejects the updates. -/
def chain : List (Env × Op) → State → Engine → Option (State × Engine)
  | [], s, E => some (s, E)
  | x :: l, s, E =>
    if x.2 = .gather then do
      let g ← gather x.1 s
      let E' ← engineApply E g.2
      chain l g.1 E'
    else chain l (x.2.run x.1 s) E

/-- Each key is used by its owner only. -/
def KeysOwned (owner : PubKey → Addr) (l : List (Env × Op)) : Prop := ∀ x ∈ l, ∀ a k, x.2 = .switchOn a k → owner k = a

theorem Synced.chain {owner : PubKey → Addr} : ∀ {l : List (Env × Op)} {s : State} {E : Engine}, Synced owner s E →
    (∀ x ∈ l, SortOk x.1.sort) → KeysOwned owner l → ∃ E', Noding.chain l s E = some (runs l s, E') ∧ Synced owner (runs l s) E' := by
  intro l
  induction l with
  | nil => intro s E h _ _; exact ⟨E, rfl, h⟩
  | cons x l ih =>
    intro s E h hs hk
    have hs' : ∀ y ∈ l, SortOk y.1.sort := fun y hy => hs y (List.mem_cons_of_mem _ hy)
    have hk' : KeysOwned owner l := fun y hy => hk y (List.mem_cons_of_mem _ hy)
    unfold Noding.chain
    by_cases hg : x.2 = .gather
    · rw [if_pos hg]
      have hsort := hs x (List.mem_cons_self ..)
      obtain ⟨t, u, hgt⟩ := gather_total (e := x.1) hsort h.clean
        (fun a i hi ha => h.on a i hi (by simp only [Info.isActive, Bool.and_eq_true] at ha; exact ha.1.1)) h.params
      obtain ⟨E', hE, hS⟩ := h.gather hsort hgt
      have hr : x.2.run x.1 s = t := by rw [hg]; show ((Noding.gather x.1 s).map Prod.fst).getD s = t; rw [hgt]; rfl
      simp only [hgt, hE, Option.bind_eq_bind, Option.bind_some, runs_cons, hr]
      exact ih hS hs' hk'
    · rw [if_neg hg]
      exact ih (h.step hg (fun a k he => hk x (List.mem_cons_self ..) a k he)) hs' hk'

end Verif.Noding
