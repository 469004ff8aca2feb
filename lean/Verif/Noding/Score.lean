import Verif.Noding.Qualify

/-! Property C70: what the score of a validator consists of, throughout every execution. -/
namespace Verif.Noding
open Verif.Util

/-- What remains of the score when strokes and signed blocks are taken out: the part that comes from the stake. -/
def Info.stakePart (i : Info) : Int := i.score + i.strokes - i.okBlocks / 100

/-- The stake part of an account may be: nothing (a staff member without a record until then), what it was at the start, or the
logarithm of the stake the account had at some step of the execution, a stake below one counting as one. -/
def Source (s : State) (l : List (Env × Op)) (a : Addr) (v : Int) : Prop :=
  v = 0 ∨ (∃ i, s.records.get a = some i ∧ v = i.stakePart) ∨
    ∃ x ∈ l, ∃ stake, x.1.stake a = some stake ∧ v = x.1.log (max 1 stake)

/-- A record with a sensible counter of signed blocks and a stake part for which `V` holds. -/
def Scored (V : Int → Prop) (i : Info) : Prop := 0 ≤ i.okBlocks ∧ V i.stakePart

theorem scored_core (V : Int → Prop) : CoreOnly (Scored V) := by
  intro i j h
  obtain ⟨-, -, -, -, -, -, -, h1, h2, h3⟩ := core_fields h
  simp only [Scored, Info.stakePart, h1, h2, h3]

theorem scored_update {V : Int → Prop} {log : Int → Int} {stake : Int} {i : Info} (h : 0 ≤ i.okBlocks) (hv : V (log (max 1 stake))) :
    Scored V (i.updateScore log stake) := by
  refine ⟨h, ?_⟩
  have hmax : (if stake < 1 then (1 : Int) else stake) = max 1 stake := by split <;> omega
  have : (i.updateScore log stake).stakePart = log (max 1 stake) := by
    simp only [Info.stakePart, Info.updateScore, hmax, Int.tdiv_eq_ediv_of_nonneg h]
    omega
  rw [this]; exact hv

theorem scored_tick {V : Int → Prop} {i : Info} (h : Scored V i) :
    Scored V (if ({ i with missed := 0, okBlocks := i.okBlocks + 1 } : Info).okBlocks.tmod 100 = 0
      then { i with missed := 0, okBlocks := i.okBlocks + 1, score := i.score + 1 } else { i with missed := 0, okBlocks := i.okBlocks + 1 }) := by
  obtain ⟨h0, hv⟩ := h
  have hm : (i.okBlocks + 1).tmod 100 = (i.okBlocks + 1) % 100 := Int.tmod_eq_emod_of_nonneg (by omega)
  dsimp only
  rw [hm]
  split
  · refine ⟨by dsimp only; omega, ?_⟩
    have : (Info.stakePart { i with missed := 0, okBlocks := i.okBlocks + 1, score := i.score + 1 }) = i.stakePart := by
      simp only [Info.stakePart]; omega
    rw [this]; exact hv
  · refine ⟨by dsimp only; omega, ?_⟩
    have : (Info.stakePart { i with missed := 0, okBlocks := i.okBlocks + 1 }) = i.stakePart := by
      simp only [Info.stakePart]; omega
    rw [this]; exact hv

theorem scored_struck {V : Int → Prop} {i : Info} (h : Scored V i) : Scored V i.struck := by
  obtain ⟨h0, hv⟩ := h
  refine ⟨le_refl _, ?_⟩
  have : i.struck.stakePart = i.stakePart := by
    simp only [Info.stakePart, Info.struck, Int.tdiv_eq_ediv_of_nonneg h0]; omega
  rw [this]; exact hv

theorem scored_amnesty {V : Int → Prop} {i : Info} (h : Scored V i) : Scored V i.amnesty := by
  unfold Info.amnesty
  split
  · exact h
  · refine ⟨h.1, ?_⟩
    have : (Info.stakePart { i with score := i.score + i.strokes, strokes := 0, jailCount := 0 }) = i.stakePart := by
      simp only [Info.stakePart]; omega
    rw [this]; exact h.2

theorem stake_of {e : Env} {s : State} {a : Addr} {q : Bool × Int} {x : Int} (hq : isQualified e s a = some q)
    (hx : sdkInt64? q.2 = some x) : e.stake a = some x := by
  have h1 : e.stake a = some q.2 := by
    unfold isQualified at hq
    cases hs : e.stake a with
    | none => simp [hs] at hq
    | some y =>
      cases ht : e.status a with
      | none => simp [hs, ht] at hq
      | some st =>
        simp only [hs, ht, Option.bind_eq_bind, Option.bind_some] at hq
        repeat' split at hq
        all_goals first
          | (simp only [Option.some.injEq] at hq; rw [← hq])
          | (simp only [Option.bind_eq_some_iff] at hq
             obtain ⟨n, -, hq⟩ := hq
             split at hq
             · simp only [Option.some.injEq] at hq; rw [← hq]
             · simp only [Option.bind_eq_some_iff] at hq
               obtain ⟨n, -, hq⟩ := hq
               split at hq <;> (simp only [Option.some.injEq] at hq; rw [← hq]))
  unfold sdkInt64? at hx
  split at hx
  · simp only [Option.some.injEq] at hx; rw [h1, hx]
  · cases hx

/-- Whatever record the account has satisfies `P`. -/
def AllOf (P : Info → Prop) (s : State) (b : Addr) : Prop := ∀ i, s.records.get b = some i → P i

theorem AllOf.update {P : Info → Prop} {s t : State} {a b : Addr} {f : KV Nat Addr → Info → KV Nat Addr × Info}
    (hs : AllOf P s b) (h : update s a f = some t) (hf : ∀ q i, P i → P (f q i).2) : AllOf P t b := by
  intro j hj
  have := update_records h b
  rw [hj] at this
  by_cases hb : b = a
  · subst hb
    rw [if_pos rfl] at this
    cases hg : s.records.get b with
    | none => simp [hg] at this
    | some i =>
      simp only [hg, Option.map_some, Option.some.injEq] at this
      rw [this]; exact hf _ _ (hs i hg)
  · rw [if_neg hb] at this
    exact hs j this.symm

theorem AllOf.put {P : Info → Prop} {s t : State} {a b : Addr} {i : Info} (hs : AllOf P s b) (ht : t.records = s.records.set a i)
    (hi : b = a → P i) : AllOf P t b := by
  intro j hj
  rw [ht, KV.get_set] at hj
  split at hj
  · rename_i h; cases hj; exact hi h
  · exact hs j hj

theorem AllOf.status {V : Int → Prop} {e : Env} {s t : State} {a b : Addr} (hs : AllOf (Scored V) s b)
    (h : onStatusUpdate e s a = some t) : AllOf (Scored V) t b := by
  rcases onStatusUpdate_some h with rfl | ⟨-, -, h⟩
  · exact hs
  · refine hs.update h fun q i hi => ?_
    split
    · exact Has.leave (scored_core V) q (i := { i with status := false }) hi
    · exact hi

theorem AllOf.stake {V : Int → Prop} {e : Env} {s t : State} {a b : Addr} (hs : AllOf (Scored V) s b)
    (hv : ∀ x, e.stake b = some x → V (e.log (max 1 x))) (h : onStakeChanged e s a = some t) : AllOf (Scored V) t b := by
  rcases onStakeChanged_some h with rfl | ⟨i, q, x, hi, hq, hx, ⟨-, -, rfl⟩ | ⟨-, rfl⟩⟩
  · exact hs
  · exact hs
  · refine hs.put (a := a) rfl ?_
    rintro rfl
    exact scored_update (hs i hi).1 (hv x (stake_of hq hx))

/-- One step. -/
theorem scored_run {V : Int → Prop} {e : Env} {s : State} {b : Addr} (hs : AllOf (Scored V) s b) (h0 : V 0)
    (hv : ∀ x, e.stake b = some x → V (e.log (max 1 x))) (op : Op) : AllOf (Scored V) (op.run e s) b := by
  have opt : ∀ (o : Option State), (∀ t, o = some t → AllOf (Scored V) t b) → AllOf (Scored V) (o.getD s) b := by
    intro o h
    cases o with
    | none => exact hs
    | some t => exact h t rfl
  have hc := scored_core V
  cases op with
  | switchOn a k =>
    refine opt _ fun t h => ?_
    obtain ⟨-, -, -, q, x, hq, -, hx, rfl⟩ := switchOn_some h
    refine hs.put (a := a) rfl ?_
    rintro rfl
    have hV := hv x (stake_of hq hx)
    cases hg : s.records.get b with
    | none => exact scored_update (i := { status := true, pubKey := k }) (le_refl _) hV
    | some i => exact scored_update (i := { i with status := true, pubKey := k }) (hs i hg).1 hV
  | switchOff a =>
    refine opt _ fun t h => hs.update h fun q i hi => ?_
    split
    · exact Has.leave hc q (i := { i with status := false }) hi
    · exact hi
  | unjail a =>
    refine opt _ fun t h => ?_
    obtain ⟨i, q, hi, -, -, hq, ⟨-, x, hx, rfl⟩ | ⟨-, rfl⟩⟩ := unjail_some h
    · refine hs.put (a := a) rfl ?_
      rintro rfl
      exact scored_update (i := { i with jailed := false }) (hs i hi).1 (hv x (stake_of hq hx))
    · refine hs.put (a := a) rfl ?_
      rintro rfl
      exact hs i hi
  | statusUpdate a => exact opt _ fun t h => hs.status h
  | stakeChanged a => exact opt _ fun t h => hs.stake hv h
  | proposed a =>
    refine opt _ fun t h => AllOf.update (s := { s with proposers := s.proposers.set (e.height - 1) a }) hs h fun q i hi => ?_
    exact Has.move hc q a (i := { i with proposed := i.proposed + 1 }) hi
  | tick a => exact opt _ fun t h => hs.update h fun q i hi => scored_tick hi
  | stroke a =>
    refine opt _ fun t h => hs.update h fun q i hi => ?_
    dsimp only
    split
    · exact hi
    · split
      · exact Has.leave hc q (i := i.struck.jail (e.height + s.params.unjailAfter)) (scored_struck hi)
      · exact Has.move hc q a (i := i.struck) (scored_struck hi)
  | byzantine a =>
    refine opt _ fun t h => hs.update h fun q i hi => ?_
    dsimp only
    split
    · exact Has.leave hc q (i := { i with infractions := i.infractions + 1, banned := true, status := false }) hi
    · exact Has.move hc q a (i := { i with infractions := i.infractions + 1 }) hi
  | addStaff a =>
    show AllOf _ (addToStaff s a) b
    unfold addToStaff
    split
    · rename_i i hi
      refine hs.put (a := a) rfl ?_
      rintro rfl
      exact hs i hi
    · refine hs.put (a := a) rfl ?_
      rintro rfl
      exact ⟨le_refl _, h0⟩
  | removeStaff a =>
    show AllOf _ (removeFromStaff e s a) b
    rcases removeFromStaff_cases e s a with h | ⟨i, hi, -, s1, h1, h⟩
    · rw [h]; exact hs
    · have hs1 : AllOf (Scored V) s1 b := by
        refine hs.put (a := a) (by rw [h1]) ?_
        rintro rfl
        exact hs i hi
      rcases h with h | ⟨-, s2, h2, h | h⟩
      · rw [h]; exact hs1
      · rw [h]; exact hs1.status h2
      · exact (hs1.status h2).stake hv h
  | amnesty =>
    intro j hj
    change (generalAmnesty s).records.get b = some j at hj
    rw [amnesty_get] at hj
    cases hg : s.records.get b with
    | none => simp [hg] at hj
    | some i =>
      simp only [hg, Option.map_some, Option.some.injEq] at hj
      rw [← hj]; exact scored_amnesty (hs i hg)
  | setParams p =>
    refine opt _ fun t h => ?_
    unfold setParams at h
    split at h
    · cases h; exact hs
    · cases h
  | gather =>
    intro j hj
    change (((gather e s).map Prod.fst).getD s).records.get b = some j at hj
    cases h : gather e s with
    | none => rw [h] at hj; exact hs j hj
    | some x =>
      obtain ⟨t, u⟩ := x
      rw [h] at hj
      have := gather_core h b
      change t.records.get b = some j at hj
      simp only [field, hj, Option.map_some] at this
      cases hg : s.records.get b with
      | none => simp [hg] at this
      | some i =>
        simp only [hg, Option.map_some, Option.some.injEq] at this
        exact (hc _ _ this).2 (hs i hg)

/-- C70: in every execution and for every account the score is a stake part, minus the strokes, plus one for every hundred blocks
signed in a row; the stake part is zero, that of the start, or the logarithm of a stake the account really had at some step. -/
theorem C70_score {s : State} (h0 : ∀ a i, s.records.get a = some i → 0 ≤ i.okBlocks) (l : List (Env × Op)) (a : Addr) (i : Info)
    (hi : (runs l s).records.get a = some i) :
    ∃ v, Source s l a v ∧ i.score = v - i.strokes + i.okBlocks / 100 ∧ 0 ≤ i.okBlocks := by
  have key : ∀ (l : List (Env × Op)) (V : Int → Prop) (s : State), AllOf (Scored V) s a → V 0 →
      (∀ x ∈ l, ∀ st, x.1.stake a = some st → V (x.1.log (max 1 st))) → AllOf (Scored V) (runs l s) a := by
    intro l V
    induction l with
    | nil => intro s h _ _; exact h
    | cons x l ih =>
      intro s h hz hx
      exact ih _ (scored_run h hz (hx x (List.mem_cons_self ..)) x.2) hz fun y hy => hx y (List.mem_cons_of_mem _ hy)
  obtain ⟨h1, h2⟩ := key l (Source s l a) s (fun i hi => ⟨h0 a i hi, Or.inr (Or.inl ⟨i, hi, rfl⟩)⟩) (Or.inl rfl)
    (fun x hx st hst => Or.inr (Or.inr ⟨x, hx, st, hst, rfl⟩)) i hi
  exact ⟨_, h2, by simp only [Info.stakePart]; omega, h1⟩

/-- C70, when the stake part is renewed: a change of the stake that is accepted sets it to the logarithm of the new stake, unless
the account is active and no longer qualifies (see C33: then nothing at all is saved). -/
theorem C70_renewed {e : Env} {s t : State} {a : Addr} {i : Info} (hi : s.records.get a = some i)
    (h : onStakeChanged e s a = some t) (hq : i.isActive = true → ∃ x, Qualifies e s a x) :
    ∃ stake, e.stake a = some stake ∧ ∀ b, t.records.get b =
      if b = a then some { i with score := e.log (max 1 stake) - i.strokes + i.okBlocks.tdiv 100 } else s.records.get b := by
  have hmax : ∀ stake : Int, (if stake < 1 then (1 : Int) else stake) = max 1 stake := by intro x; split <;> omega
  have h' := h
  unfold onStakeChanged at h'
  rw [hi] at h'
  simp only [Option.bind_eq_bind, Option.bind_eq_some_iff] at h'
  obtain ⟨q, hq', x, hx, h'⟩ := h'
  refine ⟨x, stake_of hq' hx, ?_⟩
  split at h'
  · rename_i hc
    simp only [Bool.and_eq_true, Bool.not_eq_true'] at hc
    obtain ⟨y, hy⟩ := hq hc.1
    rw [C69_qualified.2 hy] at hq'
    cases hq'
    simp at hc
  · cases h'
    intro b
    simp only [KV.get_set]
    split
    · simp only [Info.updateScore, hmax]
    · rfl

/-- C70, the amnesty: afterwards nobody has strokes or jail terms on record, the strokes are given back to the score, and nothing
else changes. -/
theorem C70_amnesty (s : State) (a : Addr) :
    (generalAmnesty s).records.get a =
      (s.records.get a).map fun i => { i with strokes := 0, jailCount := 0, score := i.score + i.strokes } := by
  rw [amnesty_get]
  cases s.records.get a with
  | none => rfl
  | some i =>
    simp only [Option.map_some, Option.some.injEq]
    unfold Info.amnesty
    split
    · rename_i h
      cases i
      simp_all
    · rfl

/-- A stroke costs a point, an amnesty gives it back, a hundred signed blocks earn one. -/
example : ((runs ([(Ex.env 1, .switchOn 1 71), (Ex.env 2, .stroke 1)] : List (Env × Op)) (Ex.start 3 0)).records.get 1).map (fun i => (i.score, i.strokes)) =
      some (4, 1) ∧
    ((runs ([(Ex.env 1, .switchOn 1 71), (Ex.env 2, .stroke 1), (Ex.env 3, .amnesty)] : List (Env × Op)) (Ex.start 3 0)).records.get 1).map
      (fun i => (i.score, i.strokes)) = some (5, 0) ∧
    ((runs ((Ex.env 1, .switchOn 1 71) :: List.replicate 100 ((Ex.env 2, .tick 1) : Env × Op)) (Ex.start 3 0)).records.get 1).map
      (fun i => (i.score, i.okBlocks)) = some (6, 100) ∧
    ((runs ([(Ex.env 1, .switchOn 1 71), (Ex.env 2, .stroke 1), (Ex.env 3 8000, .stakeChanged 1)] : List (Env × Op)) (Ex.start 3 0)).records.get 1).map
      (fun i => (i.score, i.strokes)) = some (7, 1) := by decide +kernel

end Verif.Noding
