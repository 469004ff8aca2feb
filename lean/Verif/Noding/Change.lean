import Verif.Noding.Lemmas

/-! One lemma that lists, for every operation, how it can change the record of a given account. -/
namespace Verif.Noding
open Verif.Util

/-- The record after a missed block, before the queue is looked at. -/
def Info.struck (i : Info) : Info :=
  { i with score := i.score - i.okBlocks.tdiv 100 - 1, strokes := i.strokes + 1, okBlocks := 0, missed := i.missed + 1 }

/-- The record of a validator sent to jail. -/
def Info.jail (i : Info) (term : Int) : Info :=
  { i with jailed := true, unjailAt := term, jailCount := i.jailCount + 1, missed := 0 }

/-- How an operation may change the core of the record of `b`. -/
inductive Change (e : Env) (s : State) (b : Addr) : Op → Info → Info → Prop
  | on (i : Info) (k : PubKey) (stake : Int) (hb : i.banned = false) (hs : i.status = false) :
      Change e s b (.switchOn b k) i (registered e (some i) k stake)
  | off (i : Info) : Change e s b (.switchOff b) i { i with status := false }
  | demoted (i : Info) : Change e s b (.statusUpdate b) i { i with status := false }
  | rescored (i : Info) (stake : Int) : Change e s b (.stakeChanged b) i (i.updateScore e.log stake)
  | proposed (i : Info) : Change e s b (.proposed b) i { i with proposed := i.proposed + 1 }
  | tick (i : Info) (score : Int) : Change e s b (.tick b) i { i with missed := 0, okBlocks := i.okBlocks + 1, score := score }
  | jailed (i : Info) (hj : i.jailed = false) (hm : (s.params.jailAfter : Int) ≤ i.missed + 1) :
      Change e s b (.stroke b) i (i.struck.jail (e.height + s.params.unjailAfter))
  | struck (i : Info) (hj : i.jailed = false) (hm : i.missed + 1 < (s.params.jailAfter : Int)) : Change e s b (.stroke b) i i.struck
  | banned (i : Info) (h : 0 < i.infractions) :
      Change e s b (.byzantine b) i { i with infractions := i.infractions + 1, banned := true, status := false }
  | warned (i : Info) (h : i.infractions = 0) : Change e s b (.byzantine b) i { i with infractions := i.infractions + 1 }
  | released (i : Info) (stake : Int) (hj : i.jailed = true) (hh : i.unjailAt ≤ e.height) :
      Change e s b (.unjail b) i ({ i with jailed := false }.updateScore e.log stake)
  | releasedOff (i : Info) (hj : i.jailed = true) (hh : i.unjailAt ≤ e.height) :
      Change e s b (.unjail b) i { i with jailed := false, status := false }
  | staffed (i : Info) : Change e s b (.addStaff b) i { i with staff := true }
  | unstaffed (i : Info) (status : Bool) (score : Int) (h : status = true → i.status = true) :
      Change e s b (.removeStaff b) i { i with staff := false, status := status, score := score }
  | pardoned (i : Info) : Change e s b .amnesty i i.amnesty

/-- Either nothing but last power, last key and lottery number changed, or the change is one of the list. -/
def Changed (e : Env) (s : State) (b : Addr) (op : Op) (i : Info) (t : State) : Prop :=
  ∃ j, t.records.get b = some j ∧ (j.core = i.core ∨ ∃ j', Change e s b op i j' ∧ j.core = j'.core)

theorem Changed.same {e : Env} {s : State} {b : Addr} {op : Op} {i : Info} (hi : s.records.get b = some i) : Changed e s b op i s :=
  ⟨i, hi, Or.inl rfl⟩

theorem Changed.getD {e : Env} {s : State} {b : Addr} {op : Op} {i : Info} {o : Option State} (hi : s.records.get b = some i)
    (h : ∀ t, o = some t → Changed e s b op i t) : Changed e s b op i (o.getD s) := by
  cases o with
  | none => exact .same hi
  | some t => exact h t rfl

theorem Changed.update {e : Env} {s s' t : State} {a b : Addr} {op : Op} {i : Info} {f : KV Nat Addr → Info → KV Nat Addr × Info}
    (hi : s.records.get b = some i) (hs : s'.records = s.records) (h : update s' a f = some t)
    (hf : b = a → ∀ q, (f q i).2.core = i.core ∨ ∃ j', Change e s b op i j' ∧ (f q i).2.core = j'.core) : Changed e s b op i t := by
  have := update_records h b
  rw [hs] at this
  by_cases hb : b = a
  · subst hb
    rw [if_pos rfl, hi] at this
    exact ⟨_, this, hf rfl _⟩
  · rw [if_neg hb, hi] at this
    exact ⟨i, this, Or.inl rfl⟩

theorem Changed.put {e : Env} {s t : State} {a b : Addr} {op : Op} {i j : Info} (hi : s.records.get b = some i)
    (ht : t.records = s.records.set a j) (hf : b = a → ∃ j', Change e s b op i j' ∧ j.core = j'.core) : Changed e s b op i t := by
  by_cases hb : b = a
  · subst hb
    exact ⟨j, by rw [ht, KV.get_set_self], Or.inr (hf rfl)⟩
  · exact ⟨i, by rw [ht, KV.get_set_ne _ _ hb, hi], Or.inl rfl⟩

theorem core_eq_leave (q : KV Nat Addr) {i j : Info} (h : i = j) : (leaveQueue q i).2.core = j.core := h ▸ core_leaveQueue q i
theorem core_eq_move (q : KV Nat Addr) (a : Addr) {i j : Info} (h : i = j) : (moveBack q a i).2.core = j.core := h ▸ core_moveBack q a i

theorem core_status {i j : Info} (h : i.core = j.core) : i.status = j.status := by
  have := congrArg Info.status h; exact this

theorem switchOff_records {s t : State} {a : Addr} (h : switchOff s a = some t) {b : Addr} {i : Info} (hi : s.records.get b = some i) :
    ∃ j, t.records.get b = some j ∧ (j.core = i.core ∨ (b = a ∧ j.core = { i with status := false }.core)) := by
  have := update_records h b
  by_cases hb : b = a
  · subst hb
    rw [if_pos rfl, hi] at this
    refine ⟨_, this, ?_⟩
    dsimp only
    split
    · exact Or.inr ⟨rfl, core_leaveQueue ..⟩
    · exact Or.inl rfl
  · rw [if_neg hb, hi] at this
    exact ⟨i, this, Or.inl rfl⟩

theorem core_congr {i j : Info} (h : i.core = j.core) (st : Bool) (sc : Int) :
    { i with status := st, score := sc }.core = { j with status := st, score := sc }.core := by
  simp only [Info.core, Info.mk.injEq] at h ⊢
  simp_all

theorem run_change (e : Env) (s : State) (op : Op) {b : Addr} {i : Info} (hi : s.records.get b = some i) :
    Changed e s b op i (op.run e s) := by
  cases op with
  | switchOn a k =>
    refine .getD hi fun t h => ?_
    obtain ⟨-, h2, -, q, st, -, -, -, rfl⟩ := switchOn_some h
    refine .put (a := a) hi rfl ?_
    rintro rfl
    rw [hi]
    exact ⟨_, .on i k st (h2 i hi).1 (h2 i hi).2, rfl⟩
  | switchOff a =>
    refine .getD hi fun t h => ?_
    refine .update hi rfl h ?_
    rintro rfl q
    split
    · exact Or.inr ⟨_, .off i, core_eq_leave _ rfl⟩
    · exact Or.inl rfl
  | unjail a =>
    refine .getD hi fun t h => ?_
    obtain ⟨j, q, hj, h1, h2, -, h3⟩ := unjail_some h
    rcases h3 with ⟨-, st, -, rfl⟩ | ⟨-, rfl⟩
    · refine .put (a := a) hi rfl ?_
      rintro rfl
      rw [hi] at hj; cases hj
      exact ⟨_, .released i st h1 h2, rfl⟩
    · refine .put (a := a) hi rfl ?_
      rintro rfl
      rw [hi] at hj; cases hj
      exact ⟨_, .releasedOff i h1 h2, rfl⟩
  | statusUpdate a =>
    refine .getD hi fun t h => ?_
    rcases onStatusUpdate_some h with rfl | ⟨-, -, h⟩
    · exact .same hi
    · obtain ⟨j, hj, h' | ⟨rfl, h'⟩⟩ := switchOff_records h hi
      · exact ⟨j, hj, Or.inl h'⟩
      · exact ⟨j, hj, Or.inr ⟨_, .demoted i, h'⟩⟩
  | stakeChanged a =>
    refine .getD hi fun t h => ?_
    rcases onStakeChanged_some h with rfl | ⟨j, q, st, hj, -, -, ⟨-, -, rfl⟩ | ⟨-, rfl⟩⟩
    · exact .same hi
    · exact ⟨i, hi, Or.inl rfl⟩
    · refine .put (a := a) hi rfl ?_
      rintro rfl
      rw [hi] at hj; cases hj
      exact ⟨_, .rescored i st, rfl⟩
  | proposed a =>
    refine .getD hi fun t h => ?_
    refine .update (s' := { s with proposers := s.proposers.set (e.height - 1) a }) hi rfl h ?_
    rintro rfl q
    exact Or.inr ⟨_, .proposed i, core_eq_move _ _ rfl⟩
  | tick a =>
    refine .getD hi fun t h => ?_
    refine .update hi rfl h ?_
    rintro rfl q
    dsimp only
    split
    · exact Or.inr ⟨_, .tick i (i.score + 1), rfl⟩
    · exact Or.inr ⟨_, .tick i i.score, rfl⟩
  | stroke a =>
    refine .getD hi fun t h => ?_
    refine .update hi rfl h ?_
    rintro rfl q
    dsimp only
    split
    · exact Or.inl rfl
    · rename_i hj
      split
      · rename_i hm
        exact Or.inr ⟨_, .jailed i (by simpa using hj) hm, core_eq_leave _ rfl⟩
      · rename_i hm
        exact Or.inr ⟨_, .struck i (by simpa using hj) (by simpa using hm), core_eq_move _ _ rfl⟩
  | byzantine a =>
    refine .getD hi fun t h => ?_
    refine .update hi rfl h ?_
    rintro rfl q
    dsimp only
    split
    · rename_i hm
      exact Or.inr ⟨_, .banned i (by omega), core_eq_leave _ rfl⟩
    · rename_i hm
      exact Or.inr ⟨_, .warned i (by omega), core_eq_move _ _ rfl⟩
  | addStaff a =>
    show Changed e s b _ i (addToStaff s a)
    unfold addToStaff
    cases hg : s.records.get a with
    | some j =>
      refine .put (a := a) hi rfl ?_
      rintro rfl
      rw [hi] at hg; cases hg
      exact ⟨_, .staffed i, rfl⟩
    | none =>
      refine .put (a := a) hi rfl ?_
      rintro rfl
      rw [hi] at hg; cases hg
  | removeStaff a =>
    show Changed e s b _ i (removeFromStaff e s a)
    rcases removeFromStaff_cases e s a with h | ⟨j, hj, -, s1, h1, h⟩
    · rw [h]; exact .same hi
    · by_cases hb : b = a
      · subst hb
        rw [hi] at hj; cases hj
        have g1 : s1.records.get b = some { i with staff := false } := by rw [h1]; simp only [KV.get_set_self]
        have key : ∀ (t : State) (j : Info) (st : Bool) (sc : Int), t.records.get b = some j →
            (st = true → i.status = true) → j.core = { i with staff := false, status := st, score := sc }.core → Changed e s b (.removeStaff b) i t :=
          fun t j st sc hg hst hc => ⟨j, hg, Or.inr ⟨_, .unstaffed i st sc hst, hc⟩⟩
        rcases h with h | ⟨-, s2, h2, h⟩
        · rw [h]; exact key s1 _ i.status i.score g1 id rfl
        · have g2 : ∃ j st, s2.records.get b = some j ∧ (st = true → i.status = true) ∧
              j.core = { i with staff := false, status := st }.core := by
            rcases onStatusUpdate_some h2 with rfl | ⟨-, -, h2⟩
            · exact ⟨_, i.status, g1, id, rfl⟩
            · obtain ⟨j, hj, h | ⟨-, h⟩⟩ := switchOff_records h2 g1
              · exact ⟨j, i.status, hj, id, h⟩
              · exact ⟨j, false, hj, by simp, h⟩
          obtain ⟨j, st, hj, hst, hc⟩ := g2
          rcases h with h | h
          · rw [h]; exact key s2 j st i.score hj hst hc
          · rcases onStakeChanged_some h with h | ⟨j2, q, stake, hj2, -, -, ⟨-, -, h⟩ | ⟨-, h⟩⟩
            · rw [h]; exact key s2 j st i.score hj hst hc
            · rw [h]; exact key _ j st i.score hj hst hc
            · rw [hj] at hj2; cases hj2
              rw [h]
              refine key _ (j.updateScore e.log stake) st (j.updateScore e.log stake).score (by simp only [KV.get_set_self]) hst ?_
              have := core_congr hc st (j.updateScore e.log stake).score
              have e1 : j.updateScore e.log stake = { j with status := st, score := (j.updateScore e.log stake).score } := by
                have e2 : j.status = st := core_status hc
                subst e2
                rfl
              rw [e1]
              exact this
      · have g1 : s1.records.get b = some i := by rw [h1]; simp only [KV.get_set_ne _ _ hb]; exact hi
        rcases h with h | ⟨-, s2, h2, h⟩
        · rw [h]; exact ⟨i, g1, Or.inl rfl⟩
        · have g2 : ∃ j, s2.records.get b = some j ∧ j.core = i.core := by
            rcases onStatusUpdate_some h2 with rfl | ⟨-, -, h2⟩
            · exact ⟨_, g1, rfl⟩
            · obtain ⟨j, hj, h | ⟨h, -⟩⟩ := switchOff_records h2 g1
              · exact ⟨j, hj, h⟩
              · exact absurd h hb
          obtain ⟨j, hj, hc⟩ := g2
          rcases h with h | h
          · rw [h]; exact ⟨j, hj, Or.inl hc⟩
          · rcases onStakeChanged_some h with h | ⟨j2, q, stake, hj2, -, -, ⟨-, -, h⟩ | ⟨-, h⟩⟩
            · rw [h]; exact ⟨j, hj, Or.inl hc⟩
            · rw [h]; exact ⟨j, hj, Or.inl hc⟩
            · rw [h]; exact ⟨j, by simp only [KV.get_set_ne _ _ hb]; exact hj, Or.inl hc⟩
  | amnesty => exact ⟨i.amnesty, by show (generalAmnesty s).records.get b = _; rw [amnesty_get, hi]; rfl, Or.inr ⟨_, .pardoned i, rfl⟩⟩
  | setParams p =>
    refine .getD hi fun t h => ?_
    unfold setParams at h
    split at h
    · simp only [Option.some.injEq] at h; subst h; exact ⟨i, hi, Or.inl rfl⟩
    · simp at h
  | gather =>
    show Changed e s b _ i (((gather e s).map Prod.fst).getD s)
    cases h : gather e s with
    | none => exact .same hi
    | some x =>
      obtain ⟨t, u⟩ := x
      have := gather_core h b
      simp only [field, hi, Option.map_some] at this
      cases hj : t.records.get b with
      | none => simp [hj] at this
      | some j =>
        simp only [hj, Option.map_some, Option.some.injEq] at this
        exact ⟨j, hj, Or.inl this⟩

/-- Core fields, read off an equality of cores. -/
theorem core_fields {i j : Info} (h : i.core = j.core) : i.status = j.status ∧ i.pubKey = j.pubKey ∧ i.jailed = j.jailed ∧
    i.unjailAt = j.unjailAt ∧ i.banned = j.banned ∧ i.missed = j.missed ∧ i.staff = j.staff ∧ i.score = j.score ∧
    i.okBlocks = j.okBlocks ∧ i.strokes = j.strokes := by
  simp only [Info.core, Info.mk.injEq] at h
  simp_all

end Verif.Noding
