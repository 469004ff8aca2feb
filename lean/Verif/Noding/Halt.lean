import Verif.Noding.Props

/-! Property C97: there is always a validator, and the engine takes every list of updates. -/
namespace Verif.Noding
open Verif.Util

/-! ### Specification -/

/-- Tendermint, types/validator_set.go `MaxTotalVotingPower`: the largest 64-bit number divided by eight -/
def maxTotal : Int := 1152921504606846975

/-- The power of all validators of the engine -/
def total (E : Engine) : Int := (E.entries.map Prod.snd).sum

/-- All the checks of Tendermint's `updateWithChangeSet`: besides those of `engineApply`, a set without validators and too much power are errors
that stop the chain; a list without updates is not looked at. -/
def consensusApply (E : Engine) (u : List Upd) : Option Engine :=
  if u = [] then some E
  else do
    let E' ← engineApply E u
    if E'.entries = [] ∨ maxTotal < total E' then none else some E'

/-- As `chain`, with all the checks -/
def lives : List (Env × Op) → State → Engine → Option (State × Engine)
  | [], s, E => some (s, E)
  | x :: l, s, E =>
    if x.2 = .gather then do
      let g ← gather x.1 s
      let E' ← consensusApply E g.2
      lives l g.1 E'
    else lives l (x.2.run x.1 s) E

/-- Somebody is switched on, not in jail and not banned. -/
def Awake (s : State) : Prop := ∃ a i, s.records.get a = some i ∧ i.status = true ∧ i.jailed = false ∧ i.banned = false

/-- Even if all who are switched on, not in jail and not banned had the highest power of the table, it would not be too much. -/
def Room (s : State) : Prop :=
  ∃ P : Int, (∀ x ∈ s.params.votingPower.slices, x.power ≤ P) ∧ s.params.votingPower.luckyPower ≤ P ∧
    ((s.records.entries.filter fun x => x.2.status && !x.2.jailed && !x.2.banned).length : Int) * P ≤ maxTotal

/-- The condition holds at every end of a block. -/
def Throughout (ok : State → Prop) : List (Env × Op) → State → Prop
  | [], _ => True
  | x :: l, s => (x.2 = .gather → ok s) ∧ Throughout ok l (x.2.run x.1 s)

/-! ### Proofs -/

theorem entries_nil {E : Engine} : E.entries = [] ↔ ∀ k, E.get k = none := by
  constructor
  · intro h k
    cases hk : E.get k with
    | none => rfl
    | some p => have := KV.mem_entries.2 hk; rw [h] at this; cases this
  · intro h
    rw [List.eq_nil_iff_forall_not_mem]
    rintro ⟨k, p⟩ hm
    rw [KV.mem_entries, h] at hm; cases hm

/-- The engine has a validator after the block exactly when somebody is active. -/
theorem awake_iff {owner : PubKey → Addr} {e : Env} {s t : State} {E : Engine} {top rest : List Row} (S : Selection e s t top rest)
    (hp : s.params.validate? = some true) (hS : Synced owner t E) : E.entries ≠ [] ↔ Awake s := by
  have hne : E.entries ≠ [] ↔ ∃ a i, t.records.get a = some i ∧ i.lastPower ≠ 0 := by
    rw [Ne, entries_nil, not_forall]
    constructor
    · rintro ⟨k, hk⟩
      obtain ⟨p, hp⟩ := Option.ne_none_iff_exists'.1 hk
      obtain ⟨hk0, i, hi, h1, -⟩ := (hS.engine k p).1 hp
      exact ⟨_, i, hi, fun h => hk0 (h1.symm.trans ((hS.clean _ i hi).1 h))⟩
    · rintro ⟨a, i, hi, hl⟩
      have hk : i.lastPubKey ≠ 0 := fun h => hl ((hS.clean a i hi).2 h)
      refine ⟨i.lastPubKey, ?_⟩
      rw [(hS.engine i.lastPubKey i.lastPower).2 ⟨hk, i, by rw [hS.last a i hi hk]; exact hi, rfl, rfl⟩]
      exact Option.some_ne_none _
  rw [hne]
  constructor
  · rintro ⟨a, i, hi, hl⟩
    obtain ⟨x, hx, -, -⟩ := S.of_record hi (Or.inr hl)
    obtain ⟨h1, h2⟩ := S.mem x hx
    simp only [Info.isActive, Bool.and_eq_true, Bool.not_eq_true'] at h2
    exact ⟨_, _, h1, h2.1.1, h2.1.2, h2.2⟩
  · rintro ⟨a, i, hi, h1, h2, h3⟩
    have hpos : 0 < top.length := by
      rw [S.size]
      have : (a, i) ∈ actives s := List.mem_filter.2 ⟨KV.mem_entries.2 hi, by simp [Info.isActive, h1, h2, h3]⟩
      have := List.length_pos_of_mem this
      have := (params_ok hp).1
      omega
    obtain ⟨x, hx⟩ := List.exists_mem_of_length_pos hpos
    have hm : x ∈ top ++ rest := List.mem_append_left _ hx
    obtain ⟨p, hpw⟩ := Option.isSome_iff_exists.1 (S.ofTop x hx).1
    refine ⟨x.acc, _, S.row x hm, ?_⟩
    show x.power.getD 0 ≠ 0
    rw [hpw]
    exact (S.pos x hm p hpw).ne'

/-- The power of the engine is that of the chosen validators. -/
theorem total_eq {owner : PubKey → Addr} {e : Env} {s t : State} {E : Engine} {top rest : List Row} (S : Selection e s t top rest)
    (hS : Synced owner t E) : total E = ((top ++ rest).filterMap Row.power).sum := by
  let sel := (top ++ rest).filter fun x => x.power.isSome
  have hsel : ∀ x ∈ sel, x ∈ top ++ rest ∧ x.power.isSome = true := fun x hx => List.mem_filter.1 hx
  have hsum : (top ++ rest).filterMap Row.power = sel.map fun x => x.power.getD 0 := by
    simp only [sel]
    generalize top ++ rest = rows
    induction rows with
    | nil => rfl
    | cons x r ih =>
      cases hp : x.power with
      | none => simp [hp, ih]
      | some p => simp [hp, ih]
  have hkey : ∀ x ∈ sel, x.info.pubKey ≠ 0 ∧ owner x.info.pubKey = x.acc := by
    intro x hx
    obtain ⟨h1, h2⟩ := hsel x hx
    obtain ⟨p, hp⟩ := Option.isSome_iff_exists.1 h2
    have hr := S.row x h1
    have hl : (settle x.info x.power x.no).lastPubKey = x.info.pubKey := by rw [(settle_inj_fields ..).2.2.2, if_pos h2]
    have hk : x.info.pubKey ≠ 0 := by
      intro h
      have : (settle x.info x.power x.no).lastPower = 0 := (hS.clean _ _ hr).2 (hl.trans h)
      have h' : x.power.getD 0 = 0 := this
      rw [hp] at h'
      exact (S.pos x h1 p hp).ne' h'
    refine ⟨hk, ?_⟩
    have := hS.last _ _ hr (by rw [hl]; exact hk)
    rwa [hl] at this
  have hnd : (sel.map fun x => (x.info.pubKey, x.power.getD 0)).Nodup := by
    have h1 : (sel.map Row.acc).Nodup := (List.filter_sublist.map _).nodup S.nodup
    have h2 : (sel.map fun x => (x.info.pubKey, x.power.getD 0)).map (fun y => owner y.1) = sel.map Row.acc := by
      rw [List.map_map]
      exact List.map_congr_left fun x hx => (hkey x hx).2
    exact List.Nodup.of_map _ (h2 ▸ h1)
  have hend : E.entries.Nodup := List.Nodup.of_map Prod.fst (KV.keys_nodup E)
  have hperm : E.entries.Perm (sel.map fun x => (x.info.pubKey, x.power.getD 0)) := by
    rw [List.perm_ext_iff_of_nodup hend hnd]
    rintro ⟨k, p⟩
    rw [KV.mem_entries, hS.engine, List.mem_map]
    constructor
    · rintro ⟨hk, i, hi, h1, h2⟩
      have hl : i.lastPower ≠ 0 := fun h => hk (h1.symm.trans ((hS.clean _ i hi).1 h))
      obtain ⟨x, hx, -, rfl⟩ := S.of_record hi (Or.inr hl)
      have hsome : x.power.isSome = true := by
        cases hxp : x.power with
        | none => exfalso; apply hl; show x.power.getD 0 = 0; rw [hxp]; rfl
        | some p => rfl
      refine ⟨x, List.mem_filter.2 ⟨hx, hsome⟩, ?_⟩
      rw [(settle_inj_fields ..).2.2.2, if_pos hsome] at h1
      rw [h1]
      exact congrArg (Prod.mk k) h2
    · rintro ⟨x, hx, he⟩
      cases he
      obtain ⟨h1, h2⟩ := hkey x hx
      refine ⟨h1, _, by rw [h2]; exact S.row x (hsel x hx).1, ?_, rfl⟩
      rw [(settle_inj_fields ..).2.2.2, if_pos (hsel x hx).2]
  unfold total
  rw [(hperm.map Prod.snd).sum_eq, hsum, List.map_map]
  rfl

theorem powers_le {d : Distribution} (h : d.validate? = some true) {max : Nat} (hm : 0 < max) {P : Int} (h1 : ∀ x ∈ d.slices, x.power ≤ P)
    (h2 : d.luckyPower ≤ P) {scores ps : List Int} {g : Gen} (ha : assign? max d {} scores = some (ps, g)) :
    ps.length = scores.length ∧ ∀ p ∈ ps, p ≤ P := by
  obtain ⟨ps', g', slice, ha', hl, -, -, -, -, hv, -⟩ := C30 h hm scores
  rw [ha] at ha'; cases ha'
  refine ⟨hl, fun p hp => ?_⟩
  obtain ⟨i, hi, rfl⟩ := List.mem_iff_getElem.1 hp
  have := hv i (hl ▸ hi)
  rw [List.getElem?_eq_getElem hi] at this
  split at this
  · cases hs : d.slices[slice i]? with
    | none => rw [hs] at this; cases this
    | some x =>
      rw [hs] at this
      simp only [Option.map_some, Option.some.injEq] at this
      rw [this]
      exact h1 x (List.mem_of_getElem? hs)
  · simp only [Option.some.injEq] at this
    rw [this]; exact h2

theorem sum_le_mul {P : Int} : ∀ {l : List Int}, (∀ p ∈ l, p ≤ P) → l.sum ≤ l.length * P
  | [], _ => by simp
  | x :: l, h => by
    have h1 := sum_le_mul (l := l) fun p hp => h p (List.mem_cons_of_mem _ hp)
    have h2 := h x List.mem_cons_self
    rw [List.sum_cons, List.length_cons]
    push_cast
    rw [Int.add_mul]
    omega

theorem room_total {owner : PubKey → Addr} {e : Env} {s t : State} {E : Engine} {top rest : List Row} (S : Selection e s t top rest)
    (hsort : SortOk e.sort) (hp : s.params.validate? = some true) (hS : Synced owner t E) (hr : Room s) : total E ≤ maxTotal := by
  obtain ⟨P, h1, h2, h3⟩ := hr
  rw [total_eq S hS]
  obtain ⟨hmax, -, -⟩ := params_ok hp
  have hv : s.params.votingPower.validate? = some true := by
    have := hp
    unfold Params.validate? at this
    split at this; · simp at this
    split at this; · simp at this
    split at this; · simp at this
    split at this; · simp at this
    split at this; · simp at this
    exact this
  obtain ⟨g, hg⟩ := S.powers
  obtain ⟨hl, hle⟩ := powers_le hv hmax h1 h2 hg
  refine Int.le_trans (sum_le_mul hle) (Int.le_trans ?_ h3)
  have hlen : ((top ++ rest).filterMap Row.power).length ≤ (actives s).length := by
    have : (top ++ rest).length = (actives s).length := by
      rw [← (hsort.perm (actives s)).length_eq, ← S.pairs, List.length_map]
    rw [← this]
    exact List.length_filterMap_le _ _
  have hact : (actives s).length = (s.records.entries.filter fun x => x.2.status && !x.2.jailed && !x.2.banned).length := by
    unfold actives Info.isActive; rfl
  rw [← hact]
  have hP : 0 ≤ P := by
    unfold Distribution.validate? at hv
    split at hv
    · simp at hv
    · omega
  exact Int.mul_le_mul_of_nonneg_right (by exact_mod_cast hlen) hP

theorem block_end {owner : PubKey → Addr} {e : Env} {s t : State} {u : List Upd} {E : Engine} (h : Synced owner s E) (hsort : SortOk e.sort)
    (hg : gather e s = some (t, u)) :
    ∃ E', engineApply E u = some E' ∧ Synced owner t E' ∧ (E'.entries ≠ [] ↔ Awake s) ∧ (Room s → total E' ≤ maxTotal) := by
  obtain ⟨E', hE, hS⟩ := h.gather hsort hg
  obtain ⟨-, top, rest, mid, -, S⟩ := Good.gather ⟨h.params, h.clean, h.on⟩ hsort hg
  exact ⟨E', hE, hS, awake_iff S h.params hS, room_total S hsort h.params hS⟩

theorem engineApply_nil (E : Engine) : engineApply E [] = some E := by
  unfold engineApply
  simp

theorem consensus_engine {E E' : Engine} {u : List Upd} (h : consensusApply E u = some E') : engineApply E u = some E' := by
  unfold consensusApply at h
  split at h
  · rename_i hu; cases h; subst hu; exact engineApply_nil _
  · cases hE : engineApply E u with
    | none => rw [hE] at h; cases h
    | some F =>
      rw [hE] at h
      simp only [Option.bind_eq_bind, Option.bind_some] at h
      split at h
      · cases h
      · exact h

theorem lives_chain : ∀ {l : List (Env × Op)} {s : State} {E : Engine} {r : State × Engine}, lives l s E = some r → chain l s E = some r
  | [], _, _, _, h => h
  | x :: l, s, E, r, h => by
    unfold lives at h
    unfold chain
    split
    · rename_i hx
      rw [if_pos hx] at h
      cases hg : gather x.1 s with
      | none => rw [hg] at h; cases h
      | some g =>
        rw [hg] at h
        simp only [Option.bind_eq_bind, Option.bind_some] at h ⊢
        cases hE : consensusApply E g.2 with
        | none => rw [hE] at h; cases h
        | some E' =>
          rw [hE] at h
          rw [consensus_engine hE]
          exact lives_chain h
    · rename_i hx
      rw [if_neg hx] at h
      exact lives_chain h

theorem lives_append : ∀ (l m : List (Env × Op)) (s : State) (E : Engine), lives (l ++ m) s E = (lives l s E).bind fun r => lives m r.1 r.2
  | [], _, _, _ => rfl
  | x :: l, m, s, E => by
    show lives (x :: (l ++ m)) s E = _
    rw [lives, lives]
    split
    · cases gather x.1 s with
      | none => rfl
      | some g =>
        simp only [Option.bind_eq_bind, Option.bind_some]
        cases consensusApply E g.2 with
        | none => rfl
        | some E' => exact lives_append l m g.1 E'
    · exact lives_append l m _ _

theorem synced_start {owner : PubKey → Addr} {s : State} (hs : Start s)
    (hown : ∀ a i, s.records.get a = some i → i.pubKey ≠ 0 → owner i.pubKey = a) : Synced owner s KV.empty := by
  refine ⟨hs.good.clean, fun a i hi h => absurd (hs.fresh a i hi).2.1 h, hown, hs.on, hs.params, ?_⟩
  intro k p
  rw [KV.get_empty]
  constructor
  · intro h; cases h
  · rintro ⟨hk, i, hi, h, -⟩; exact absurd (h.symm.trans (hs.fresh _ i hi).2.1) hk

/-! ### The property -/

/-- The circumstances of C28: a chain without validators at the start, keys that are used by one account only. -/
structure Setting (owner : PubKey → Addr) (s : State) (l : List (Env × Op)) : Prop where
  start : Start s
  keys : ∀ a i, s.records.get a = some i → i.pubKey ≠ 0 → owner i.pubKey = a
  sorts : ∀ x ∈ l, SortOk x.1.sort
  owned : KeysOwned owner l

/-- C97, one block: while the engine has validators and not too much power, it takes the updates of a block exactly when somebody is active and the
power of the chosen ones is not too much. -/
theorem C97_block_partial {owner : PubKey → Addr} {s : State} {l : List (Env × Op)} (h : Setting owner s l) {E : Engine}
    (hE : lives l s KV.empty = some (runs l s, E)) (h1 : E.entries ≠ []) (h2 : total E ≤ maxTotal) {e : Env} (he : SortOk e.sort) :
    ∃ t u E', gather e (runs l s) = some (t, u) ∧ engineApply E u = some E' ∧
      (Awake (runs l s) ∧ total E' ≤ maxTotal → consensusApply E u = some E') ∧
      (¬ (Awake (runs l s) ∧ total E' ≤ maxTotal) → consensusApply E u = none) := by
  obtain ⟨F, hF, hS⟩ := (synced_start h.start h.keys).chain h.sorts h.owned
  rw [lives_chain hE] at hF
  cases hF
  obtain ⟨t, u, hg⟩ := Good.total ⟨hS.params, hS.clean, hS.on⟩ he
  obtain ⟨E', hE', -, ha, -⟩ := block_end hS he hg
  refine ⟨t, u, E', hg, hE', fun hc => ?_, fun hc => ?_⟩
  · unfold consensusApply
    split
    · rename_i hu; subst hu; rw [engineApply_nil] at hE'; exact hE'
    · rw [hE']
      simp only [Option.bind_eq_bind, Option.bind_some]
      rw [if_neg]
      rintro (h' | h')
      · exact ha.2 hc.1 h'
      · omega
  · unfold consensusApply
    split
    · rename_i hu
      subst hu
      rw [engineApply_nil] at hE'; cases hE'
      exact absurd ⟨ha.1 h1, h2⟩ hc
    · rw [hE']
      simp only [Option.bind_eq_bind, Option.bind_some]
      rw [if_pos]
      by_cases hw : Awake (runs l s)
      · right
        by_contra hlt
        exact hc ⟨hw, by omega⟩
      · left
        by_contra hn
        exact hw (ha.1 hn)

theorem lives_synced {owner : PubKey → Addr} : ∀ {l : List (Env × Op)} {s : State} {E : Engine}, Synced owner s E → (∀ x ∈ l, SortOk x.1.sort) →
    KeysOwned owner l → Throughout (fun t => Awake t ∧ Room t) l s → ∃ E', lives l s E = some (runs l s, E') := by
  intro l
  induction l with
  | nil => intro s E _ _ _ _; exact ⟨E, rfl⟩
  | cons x l ih =>
    intro s E h hs hk ht
    have hs' : ∀ y ∈ l, SortOk y.1.sort := fun y hy => hs y (List.mem_cons_of_mem _ hy)
    have hk' : KeysOwned owner l := fun y hy => hk y (List.mem_cons_of_mem _ hy)
    unfold lives
    by_cases hg : x.2 = .gather
    · rw [if_pos hg]
      have hsort := hs x (List.mem_cons_self ..)
      obtain ⟨t, u, hgt⟩ := Good.total (e := x.1) ⟨h.params, h.clean, h.on⟩ hsort
      obtain ⟨E', hE, hS, ha, hr⟩ := block_end h hsort hgt
      have hr' : x.2.run x.1 s = t := by rw [hg]; show ((Noding.gather x.1 s).map Prod.fst).getD s = t; rw [hgt]; rfl
      have hc : consensusApply E u = some E' := by
        unfold consensusApply
        split
        · rename_i hu; subst hu; rw [engineApply_nil] at hE; exact hE
        · rw [hE]
          simp only [Option.bind_eq_bind, Option.bind_some]
          rw [if_neg]
          have := hr (ht.1 hg).2
          rintro (h' | h')
          · exact ha.2 (ht.1 hg).1 h'
          · omega
      simp only [hgt, hc, Option.bind_eq_bind, Option.bind_some, runs_cons, hr']
      have := ht.2
      rw [hr'] at this
      exact ih hS hs' hk' this
    · rw [if_neg hg]
      exact ih (h.step hg (fun a k he => hk x (List.mem_cons_self ..) a k he)) hs' hk' ht.2

/-- C97: if at every end of a block somebody is active and the table leaves room for the powers, the chain goes on. -/
theorem C97_goes_on_partial {owner : PubKey → Addr} {s : State} {l : List (Env × Op)} (h : Setting owner s l)
    (ht : Throughout (fun t => Awake t ∧ Room t) l s) : ∃ E, lives l s KV.empty = some (runs l s, E) :=
  lives_synced (synced_start h.start h.keys) h.sorts h.owned ht

/-- C97 fails whenever nobody is active at the end of a block. -/
theorem C97_nobody_violation {owner : PubKey → Addr} {s : State} {l : List (Env × Op)} (h : Setting owner s l) {E : Engine}
    (hE : lives l s KV.empty = some (runs l s, E)) (h1 : E.entries ≠ []) {e : Env} (he : SortOk e.sort) (hn : ¬ Awake (runs l s)) :
    lives (l ++ [(e, .gather)]) s KV.empty = none := by
  obtain ⟨F, hF, hS⟩ := (synced_start h.start h.keys).chain h.sorts h.owned
  rw [lives_chain hE] at hF
  cases hF
  obtain ⟨t, u, hg⟩ := Good.total ⟨hS.params, hS.clean, hS.on⟩ he
  obtain ⟨E', hE', -, ha, -⟩ := block_end hS he hg
  have hnil : E'.entries = [] := by by_contra hc; exact hn (ha.1 hc)
  have hc : consensusApply E u = none := by
    unfold consensusApply
    split
    · rename_i hu
      subst hu
      rw [engineApply_nil] at hE'; cases hE'
      exact absurd hnil h1
    · rw [hE']
      simp only [Option.bind_eq_bind, Option.bind_some]
      rw [if_pos (Or.inl hnil)]
  rw [lives_append, hE]
  show lives [(e, .gather)] (runs l s) E = none
  unfold lives
  rw [if_pos rfl, hg]
  simp only [Option.bind_eq_bind, Option.bind_some]
  rw [hc]; rfl

/-- Nothing keeps the last validator from leaving: it may switch off at any time, and the chain stops at the end of the block. -/
theorem C97_last_leaves_violation {owner : PubKey → Addr} {s : State} {l : List (Env × Op)} (h : Setting owner s l) {E : Engine}
    (hE : lives l s KV.empty = some (runs l s, E)) (h1 : E.entries ≠ []) {e : Env} (he : SortOk e.sort) {a : Addr}
    (hlast : ∀ b i, (runs l s).records.get b = some i → i.status = true → i.jailed = false → i.banned = false → b = a) :
    lives (l ++ [(e, .switchOff a), (e, .gather)]) s KV.empty = none := by
  have hrun : runs (l ++ [(e, .switchOff a)]) s = (Op.switchOff a).run e (runs l s) := by rw [runs_append]; rfl
  have hset : Setting owner s (l ++ [(e, .switchOff a)]) := by
    refine ⟨h.start, h.keys, fun x hx => ?_, fun x hx b k hk => ?_⟩
    · rcases List.mem_append.1 hx with hx | hx
      · exact h.sorts x hx
      · rw [List.mem_singleton.1 hx]; exact he
    · rcases List.mem_append.1 hx with hx | hx
      · exact h.owned x hx b k hk
      · rw [List.mem_singleton.1 hx] at hk; cases hk
  have hE2 : lives (l ++ [(e, .switchOff a)]) s KV.empty = some (runs (l ++ [(e, .switchOff a)]) s, E) := by
    rw [lives_append, hE, hrun]; rfl
  have := C97_nobody_violation hset hE2 h1 he (by
    rw [hrun]
    rintro ⟨b, i, hi, h1, h2, h3⟩
    change ((update (runs l s) a _).getD (runs l s)).records.get b = some i at hi
    unfold update at hi
    cases ha : (runs l s).records.get a with
    | none =>
      rw [ha] at hi
      have := hlast b i hi h1 h2 h3
      subst this
      have hi : (runs l s).records.get b = some i := hi
      rw [ha] at hi; cases hi
    | some j =>
      rw [ha] at hi
      simp only [Option.bind_eq_bind, Option.bind_some, Option.getD_some, KV.get_set] at hi
      split at hi
      · simp only [Option.some.injEq] at hi
        subst hi
        split at h1
        · unfold leaveQueue lotteryExclude at h1
          split at h1 <;> cases h1
        · rename_i hs; exact hs h1
      · rename_i hb; exact hb (hlast b i hi h1 h2 h3))
  rw [List.append_assoc] at this
  exact this

/-- One validator switches on, another one follows, the first one is jailed. -/
def Ex.lone : List (Env × Op) :=
  [(Ex.env 1, .switchOn 1 71), (Ex.env 1, .gather), (Ex.env 2, .switchOn 2 72), (Ex.env 2, .stroke 1), (Ex.env 2, .gather), (Ex.env 3, .stroke 1),
    (Ex.env 3, .gather)]

theorem Ex.lone_setting : Setting (fun k => k - 70) (Ex.start 3 0) Ex.lone := by
  refine ⟨Ex.start_ok 3 0 (by omega), fun a i h => ?_, fun x hx => ?_, fun x hx a k h => ?_⟩
  · change KV.empty.get a = some i at h; rw [KV.get_empty] at h; cases h
  · simp only [Ex.lone, List.mem_cons, List.not_mem_nil, or_false] at hx
    rcases hx with rfl | rfl | rfl | rfl | rfl | rfl | rfl <;> exact sortBefore_ok
  · simp only [Ex.lone, List.mem_cons, List.not_mem_nil, or_false] at hx
    rcases hx with rfl | rfl | rfl | rfl | rfl | rfl | rfl <;> cases h <;> rfl

/-- The chain goes on with validator 2 alone; its power is 15. -/
example : ((lives Ex.lone (Ex.start 3 0) KV.empty).map fun x => (x.2.entries, total x.2)) = some ([(72, 15)], 15) ∧
    ((runs Ex.lone (Ex.start 3 0)).records.entries.filter fun x => x.2.isActive).map Prod.fst = [2] ∧
    (lives (Ex.lone ++ [(Ex.env 4, .switchOff 2), (Ex.env 4, .gather)]) (Ex.start 3 0) KV.empty).isNone = true := by
  refine ⟨by decide +kernel, by decide +kernel, by decide +kernel⟩

instance (s : State) : Decidable (Awake s) :=
  decidable_of_iff (s.records.entries.any (fun x => x.2.status && !x.2.jailed && !x.2.banned) = true) (by
    rw [List.any_eq_true]
    constructor
    · rintro ⟨⟨a, i⟩, hm, h⟩
      simp only [Bool.and_eq_true, Bool.not_eq_true'] at h
      exact ⟨a, i, KV.mem_entries.1 hm, h.1.1, h.1.2, h.2⟩
    · rintro ⟨a, i, hi, h1, h2, h3⟩
      exact ⟨(a, i), KV.mem_entries.2 hi, by simp [h1, h2, h3]⟩)

/-- The conditions of `C97_goes_on_partial` hold for it. -/
example : Throughout (fun t => Awake t ∧ Room t) Ex.lone (Ex.start 3 0) := by
  have room : ∀ s : State, s.params = Ex.params 3 0 → s.records.entries.length ≤ 2 → Room s := by
    intro s hp hl
    refine ⟨15, ?_, ?_, ?_⟩
    · rw [hp]; decide
    · rw [hp]; decide
    · have h := List.length_filter_le (fun x : Addr × Info => x.2.status && !x.2.jailed && !x.2.banned) s.records.entries
      have : ((s.records.entries.filter fun x => x.2.status && !x.2.jailed && !x.2.banned).length : Int) ≤ 2 := by exact_mod_cast h.trans hl
      unfold maxTotal
      omega
  refine ⟨fun h => (by cases h), fun _ => ⟨by decide +kernel, room _ (by decide +kernel) (by decide +kernel)⟩, fun h => (by cases h),
    fun h => (by cases h), fun _ => ⟨by decide +kernel, room _ (by decide +kernel) (by decide +kernel)⟩, fun h => (by cases h),
    fun _ => ⟨by decide +kernel, room _ (by decide +kernel) (by decide +kernel)⟩, trivial⟩

/-- A table of powers that is accepted although two validators have too much power -/
def Ex.heavy : Params := { Ex.params 3 0 with votingPower := ⟨[⟨⟨1, 1⟩, 1000000000000000000⟩], 5⟩ }

/-- C97 fails for powers that are too high: the parameters are accepted, everybody is active, and the chain stops when the second validator
switches on. -/
theorem C97_power_violation : ∃ (owner : PubKey → Addr) (s : State) (l : List (Env × Op)), Setting owner s l ∧ s.params.validate? = some true ∧
    Throughout Awake l s ∧ (lives l s KV.empty).isNone = true := by
  refine ⟨fun k => k - 70, ⟨KV.empty, KV.empty, KV.empty, KV.empty, Ex.heavy⟩,
    [(Ex.env 1, .switchOn 1 71), (Ex.env 1, .gather), (Ex.env 2, .switchOn 2 72), (Ex.env 2, .gather)],
    ⟨⟨by decide +kernel, rfl, ?_, ?_⟩, ?_, ?_, ?_⟩, by decide +kernel, ?_, by decide +kernel⟩
  · intro a i h; change KV.empty.get a = some i at h; rw [KV.get_empty] at h; cases h
  · intro a i h; change KV.empty.get a = some i at h; rw [KV.get_empty] at h; cases h
  · intro a i h; change KV.empty.get a = some i at h; rw [KV.get_empty] at h; cases h
  · intro x hx
    simp only [List.mem_cons, List.not_mem_nil, or_false] at hx
    rcases hx with rfl | rfl | rfl | rfl <;> exact sortBefore_ok
  · intro x hx a k h
    simp only [List.mem_cons, List.not_mem_nil, or_false] at hx
    rcases hx with rfl | rfl | rfl | rfl <;> cases h <;> rfl
  · exact ⟨fun h => (by cases h), fun _ => by decide +kernel, fun h => (by cases h), fun _ => by decide +kernel, trivial⟩

end Verif.Noding
