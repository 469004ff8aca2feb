import Verif.Noding.Gather

/-! The consensus engine's validator set and the updates sent to it. -/
namespace Verif.Noding
open Verif.Util

/-- The validator set of the consensus engine: power per key. -/
abbrev Engine := KV PubKey Int

/-- One accepted update. -/
def put (E : Engine) (x : Upd) : Engine := if x.power = 0 then E.erase x.key else E.set x.key x.power

/-- Tendermint's treatment of a list of updates (types/validator_set.go `updateWithChangeSet`): a list with two entries for a
key, a negative power or the removal of an absent key is an error that stops the chain. -/
def engineApply (E : Engine) (u : List Upd) : Option Engine :=
  if (u.map Upd.key).Nodup ∧ (∀ x ∈ u, 0 ≤ x.power) ∧ (∀ x ∈ u, x.power = 0 → (E.get x.key).isSome = true) then some (u.foldl put E)
  else none

theorem put_get (E : Engine) (x : Upd) (k : PubKey) :
    (put E x).get k = if k = x.key then (if x.power = 0 then none else some x.power) else E.get k := by
  unfold put
  by_cases h0 : x.power = 0
  · simp only [h0, if_true, KV.get_erase]
  · simp only [h0, if_false, KV.get_set]

theorem fold_other {u : List Upd} {k : PubKey} (h : k ∉ u.map Upd.key) : ∀ E : Engine, (u.foldl put E).get k = E.get k := by
  induction u with
  | nil => intro E; rfl
  | cons x u ih =>
    intro E
    simp only [List.map_cons, List.mem_cons, not_or] at h
    rw [List.foldl_cons, ih h.2, put_get, if_neg h.1]

theorem fold_congr {u : List Upd} {k : PubKey} : ∀ {E F : Engine}, E.get k = F.get k → (u.foldl put E).get k = (u.foldl put F).get k := by
  induction u with
  | nil => intro E F h; exact h
  | cons x u ih =>
    intro E F h
    rw [List.foldl_cons, List.foldl_cons]
    apply ih
    rw [put_get, put_get, h]

/-- An account with its record before the block and its new power. -/
structure Item where
  acc : Addr
  info : Info
  power : Option Int

/-- Updates of a whole block: those of the key's owner decide. -/
theorem fold_items {owner : PubKey → Addr} {l : List Item}
    (hown : ∀ x ∈ l, ∀ y ∈ contrib x.info x.power, owner y.key = x.acc) (hnd : (l.map Item.acc).Nodup) {k : PubKey} :
    ∀ E : Engine, ((∀ x ∈ l, x.acc ≠ owner k) → ((l.flatMap fun x => contrib x.info x.power).foldl put E).get k = E.get k) ∧
      (∀ x ∈ l, x.acc = owner k →
        ((l.flatMap fun x => contrib x.info x.power).foldl put E).get k = ((contrib x.info x.power).foldl put E).get k) := by
  induction l with
  | nil => intro E; simp
  | cons z l ih =>
    intro E
    have hown' : ∀ x ∈ l, ∀ y ∈ contrib x.info x.power, owner y.key = x.acc := fun x hx => hown x (List.mem_cons_of_mem _ hx)
    simp only [List.map_cons, List.nodup_cons] at hnd
    have ih := ih hown' hnd.2 ((contrib z.info z.power).foldl put E)
    have hz : z.acc ≠ owner k → ((contrib z.info z.power).foldl put E).get k = E.get k := by
      intro hne
      apply fold_other
      intro hk
      obtain ⟨y, hy, rfl⟩ := List.mem_map.1 hk
      exact hne (hown z (List.mem_cons_self ..) y hy).symm
    simp only [List.flatMap_cons, List.foldl_append]
    constructor
    · intro hall
      rw [ih.1 (fun x hx => hall x (List.mem_cons_of_mem _ hx)), hz (hall z (List.mem_cons_self ..))]
    · intro x hx hxk
      rcases List.mem_cons.1 hx with rfl | hx
      · apply ih.1
        intro y hy hyk
        exact hnd.1 (by rw [hxk, ← hyk]; exact List.mem_map_of_mem hy)
      · rw [ih.2 x hx hxk]
        apply fold_congr
        apply hz
        intro hzk
        exact hnd.1 (by rw [hzk, ← hxk]; exact List.mem_map_of_mem hx)

/-- The link between the records and the engine, given the owner of every key. -/
structure Synced (owner : PubKey → Addr) (s : State) (E : Engine) : Prop where
  clean : ∀ a i, s.records.get a = some i → Clean i
  last : ∀ a i, s.records.get a = some i → i.lastPubKey ≠ 0 → owner i.lastPubKey = a
  key : ∀ a i, s.records.get a = some i → i.pubKey ≠ 0 → owner i.pubKey = a
  on : ∀ a i, s.records.get a = some i → i.status = true → i.pubKey ≠ 0
  params : s.params.validate? = some true
  engine : ∀ k p, E.get k = some p ↔ k ≠ 0 ∧ ∃ i, s.records.get (owner k) = some i ∧ i.lastPubKey = k ∧ i.lastPower = p

theorem params_ok {p : Params} (h : p.validate? = some true) : 0 < p.maxValidators ∧ 0 < p.jailAfter ∧ DistrOk p.votingPower := by
  unfold Params.validate? at h
  split at h
  · simp at h
  split at h
  · simp at h
  split at h
  · simp at h
  split at h
  · simp at h
  split at h
  · simp at h
  exact ⟨by omega, by omega, .of_validate h⟩

theorem next?_pos {d : Distribution} (hd : DistrOk d) {max : Nat} {g g' : Gen} {x p : Int} (h : g.next? max d x = some (p, g')) : 0 < p := by
  unfold Gen.next? at h
  dsimp only at h
  split at h
  · simp only [Option.some.injEq, Prod.mk.injEq] at h; rw [← h.1]; exact hd.lucky
  split at h
  · simp only [Option.bind_eq_bind, Option.bind_eq_some_iff, Option.some.injEq, Prod.mk.injEq] at h
    obtain ⟨y, hy, h, -⟩ := h
    rw [← h]; exact hd.power y (List.mem_of_getElem? hy)
  simp only [Option.bind_eq_bind, Option.bind_eq_some_iff] at h
  obtain ⟨b, -, h⟩ := h
  split at h
  · simp only [Option.bind_eq_some_iff, Option.some.injEq, Prod.mk.injEq] at h
    obtain ⟨y, hy, h, -⟩ := h
    rw [← h]; exact hd.power y (List.mem_of_getElem? hy)
  · simp only [Option.bind_eq_some_iff, Option.some.injEq, Prod.mk.injEq] at h
    obtain ⟨y, hy, z, -, h, -⟩ := h
    rw [← h]; exact hd.power y (List.mem_of_getElem? hy)

theorem assign?_pos {d : Distribution} (hd : DistrOk d) {max : Nat} : ∀ {l : List Int} {g g' : Gen} {ps : List Int},
    assign? max d g l = some (ps, g') → ∀ p ∈ ps, 0 < p := by
  intro l
  induction l with
  | nil =>
    intro g g' ps h
    simp only [assign?, Option.some.injEq, Prod.mk.injEq] at h
    rw [← h.1]; simp
  | cons x l ih =>
    intro g g' ps h
    simp only [assign?, Option.bind_eq_bind, Option.bind_eq_some_iff, Option.some.injEq, Prod.mk.injEq] at h
    obtain ⟨⟨a, g1⟩, ha, ⟨qs, g2⟩, hb, rfl, rfl⟩ := h
    intro p hp
    rcases List.mem_cons.1 hp with rfl | hp
    · exact next?_pos hd ha
    · exact ih hb p hp

theorem settle_inj_fields (i : Info) (o : Option Int) (n : Nat) : (settle i o n).pubKey = i.pubKey ∧ (settle i o n).status = i.status ∧
    (settle i o n).lastPower = o.getD 0 ∧ (settle i o n).lastPubKey = (if o.isSome then i.pubKey else 0) := ⟨rfl, rfl, rfl, rfl⟩

/-- One block end: the engine accepts the updates and ends up in step with the records again. -/
theorem Synced.gather {owner : PubKey → Addr} {e : Env} {s t : State} {u : List Upd} {E : Engine} (h : Synced owner s E) (hsort : SortOk e.sort)
    (hg : gather e s = some (t, u)) : ∃ E', engineApply E u = some E' ∧ Synced owner t E' := by
  obtain ⟨top, rest, mid, O⟩ := gather_outcome hsort h.clean hg
  obtain ⟨hmax, -, hd⟩ := params_ok h.params
  have hperm := hsort.perm (actives s)
  have hmem : ∀ x ∈ top ++ rest, s.records.get x.acc = some x.info ∧ x.info.isActive = true := by
    intro x hx
    have h1 : x.pair ∈ e.sort (actives s) := by rw [← O.pairs]; exact List.mem_map_of_mem hx
    have := hperm.mem_iff.1 h1
    simp only [actives, List.mem_filter] at this
    exact ⟨KV.mem_entries.1 this.1, this.2⟩
  have hcover : ∀ a i, s.records.get a = some i → i.isActive = true → ∃ x ∈ top ++ rest, x.acc = a ∧ x.info = i := by
    intro a i hi ha
    have h1 : (a, i) ∈ (top ++ rest).map Row.pair := by
      rw [O.pairs, hperm.mem_iff]
      simp only [actives, List.mem_filter]
      exact ⟨KV.mem_entries.2 hi, ha⟩
    obtain ⟨x, hx, he⟩ := List.mem_map.1 h1
    simp only [Row.pair, Prod.mk.injEq] at he
    exact ⟨x, hx, he.1, he.2⟩
  have hndr : ((top ++ rest).map Row.acc).Nodup := by
    have : (top ++ rest).map Row.acc = ((top ++ rest).map Row.pair).map Prod.fst := by simp [Row.pair, Function.comp_def]
    rw [this, O.pairs, (hperm.map Prod.fst).nodup_iff]
    exact ((List.filter_sublist (l := s.records.entries)).map Prod.fst).nodup s.records.keys_nodup
  have hpos : ∀ x ∈ top ++ rest, ∀ p, x.power = some p → 0 < p := by
    intro x hx p hp
    obtain ⟨g, hgen⟩ := O.powers
    exact assign?_pos hd hgen p (List.mem_filterMap.2 ⟨x, hx, hp⟩)
  -- all items
  let idle := s.records.entries.filter fun r => !r.2.isActive
  let items : List Item := idle.map (fun r => ⟨r.1, r.2, none⟩) ++ (top ++ rest).map (fun x => ⟨x.acc, x.info, x.power⟩)
  have hitems : ∀ x ∈ items, s.records.get x.acc = some x.info ∧ (∀ p, x.power = some p → 0 < p ∧ x.info.pubKey ≠ 0) ∧
      ∃ j, t.records.get x.acc = some j ∧ j.pubKey = x.info.pubKey ∧ j.status = x.info.status ∧ j.lastPower = x.power.getD 0 ∧
        j.lastPubKey = (if x.power.isSome then x.info.pubKey else 0) := by
    intro x hx
    rcases List.mem_append.1 hx with hx | hx
    · obtain ⟨r, hr, rfl⟩ := List.mem_map.1 hx
      simp only [idle, List.mem_filter, Bool.not_eq_true'] at hr
      have hgr := KV.mem_entries.1 hr.1
      refine ⟨hgr, by simp, r.2.clear, ?_, rfl, rfl, rfl, rfl⟩
      rw [O.other r.1 ?_, hgr]; · rfl
      intro hin
      obtain ⟨x, hx, he⟩ := List.mem_map.1 hin
      have := hmem x hx
      rw [he, hgr] at this
      have h9 := Option.some.inj this.1
      rw [← h9, hr.2] at this; cases this.2
    · obtain ⟨r, hr, rfl⟩ := List.mem_map.1 hx
      refine ⟨(hmem r hr).1, fun p hp => ⟨hpos r hr p hp, O.keys r hr⟩, _, O.row r hr, rfl, rfl, rfl, rfl⟩
  have hcov : ∀ a i, s.records.get a = some i → ∃ x ∈ items, x.acc = a ∧ x.info = i := by
    intro a i hi
    by_cases ha : i.isActive = true
    · obtain ⟨x, hx, h1, h2⟩ := hcover a i hi ha
      exact ⟨⟨x.acc, x.info, x.power⟩, List.mem_append_right _ (List.mem_map_of_mem (f := fun x : Row => Item.mk x.acc x.info x.power) hx), h1, h2⟩
    · refine ⟨⟨a, i, none⟩, List.mem_append_left _ (List.mem_map.2 ⟨(a, i), ?_, rfl⟩), rfl, rfl⟩
      simp only [idle, List.mem_filter]
      exact ⟨KV.mem_entries.2 hi, by simpa using ha⟩
  have hnd : (items.map Item.acc).Nodup := by
    simp only [items, List.map_append, List.map_map]
    rw [List.nodup_append]
    refine ⟨?_, ?_, ?_⟩
    · have := ((List.filter_sublist (l := s.records.entries) (p := fun r => !r.2.isActive)).map Prod.fst).nodup s.records.keys_nodup
      exact this
    · rw [List.map_append] at hndr
      exact hndr
    · intro a ha b hb hab
      subst hab
      obtain ⟨r, hr, h1⟩ := List.mem_map.1 ha
      have hb' : a ∈ (top ++ rest).map Row.acc := by rw [List.map_append]; exact hb
      obtain ⟨x, hx, h2⟩ := List.mem_map.1 hb'
      simp only [idle, List.mem_filter, Bool.not_eq_true'] at hr
      have h3 := hmem x hx
      have h4 := KV.mem_entries.1 hr.1
      dsimp only [Function.comp] at h1
      rw [h2, ← h1, h4] at h3
      have h9 := Option.some.inj h3.1
      rw [← h9, hr.2] at h3; cases h3.2
  have hu : u = items.flatMap fun x => contrib x.info x.power := by
    rw [O.out]
    simp only [items, List.flatMap_append, List.flatMap_map, idle]
  have hkeys : ∀ x ∈ items, ∀ y ∈ contrib x.info x.power, owner y.key = x.acc ∧ y.key ≠ 0 ∧ 0 ≤ y.power ∧
      (y.power = 0 → (E.get y.key).isSome = true) := by
    intro x hx y hy
    obtain ⟨h1, h2, -⟩ := hitems x hx
    have hrem : x.info.lastPubKey ≠ 0 → owner x.info.lastPubKey = x.acc ∧ (E.get x.info.lastPubKey).isSome = true := by
      intro hk
      have ho := h.last _ _ h1 hk
      refine ⟨ho, ?_⟩
      rw [(h.engine _ x.info.lastPower).2 ⟨hk, x.info, by rw [ho]; exact h1, rfl, rfl⟩]; rfl
    cases hp : x.power with
    | none =>
      rw [hp] at hy
      simp only [contrib] at hy
      split at hy
      · rename_i h0
        simp only [List.mem_singleton] at hy
        subst hy
        have hk : x.info.lastPubKey ≠ 0 := fun hk => h0 ((h.clean _ _ h1).2 hk)
        exact ⟨(hrem hk).1, hk, le_refl _, fun _ => (hrem hk).2⟩
      · simp at hy
    | some p =>
      rw [hp] at hy
      simp only [contrib, List.mem_append] at hy
      obtain ⟨hp0, hpk⟩ := h2 p hp
      rcases hy with hy | hy
      · split at hy
        · rename_i h0
          simp only [List.mem_singleton] at hy
          subst hy
          exact ⟨(hrem h0.2).1, h0.2, le_refl _, fun _ => (hrem h0.2).2⟩
        · simp at hy
      · split at hy
        · simp only [List.mem_singleton] at hy
          subst hy
          exact ⟨h.key _ _ h1 hpk, hpk, by dsimp only; omega, fun h0 => by dsimp only at h0; omega⟩
        · simp at hy
  have hok : (u.map Upd.key).Nodup ∧ (∀ x ∈ u, 0 ≤ x.power) ∧ (∀ x ∈ u, x.power = 0 → (E.get x.key).isSome = true) := by
    refine ⟨?_, ?_, ?_⟩
    · rw [hu, List.map_flatMap, List.nodup_flatMap]
      refine ⟨?_, ?_⟩
      · intro x hx
        cases hp : x.power with
        | none =>
          simp only [contrib]
          split <;> simp
        | some p =>
          simp only [contrib]
          by_cases h1 : x.info.pubKey = x.info.lastPubKey
          · simp only [h1, ne_eq, not_true, false_and, if_false, false_or]
            split <;> simp
          · simp only [ne_eq, h1, not_false_eq_true, true_and, true_or, if_true]
            split
            · simp; exact fun h => h1 h.symm
            · simp
      · have hnd' := hnd
        rw [List.Nodup, List.pairwise_map] at hnd'
        refine hnd'.imp_of_mem ?_
        intro x y hx hy hne
        simp only [Function.onFun]
        rw [List.disjoint_left]
        intro k hk1 hk2
        obtain ⟨z1, hz1, rfl⟩ := List.mem_map.1 hk1
        obtain ⟨z2, hz2, hzz⟩ := List.mem_map.1 hk2
        have a1 := (hkeys x hx z1 hz1).1
        have a2 := (hkeys y hy z2 hz2).1
        rw [hzz] at a2
        exact hne (a1.symm.trans a2)
    · intro x hx
      rw [hu] at hx
      obtain ⟨z, hz, hy⟩ := List.mem_flatMap.1 hx
      exact (hkeys z hz x hy).2.2.1
    · intro x hx
      rw [hu] at hx
      obtain ⟨z, hz, hy⟩ := List.mem_flatMap.1 hx
      exact (hkeys z hz x hy).2.2.2
  refine ⟨u.foldl put E, by rw [engineApply, if_pos hok], ?_⟩
  have hsome : ∀ a j, t.records.get a = some j → ∃ x ∈ items, x.acc = a := by
    intro a j hj
    cases hga : s.records.get a with
    | some i => obtain ⟨x, hx, h1, -⟩ := hcov a i hga; exact ⟨x, hx, h1⟩
    | none =>
      exfalso
      by_cases hin : a ∈ (top ++ rest).map Row.acc
      · obtain ⟨x, hx, rfl⟩ := List.mem_map.1 hin
        rw [(hmem x hx).1] at hga; cases hga
      · rw [O.other a hin, hga] at hj; cases hj
  refine ⟨?_, ?_, ?_, ?_, by rw [O.params]; exact h.params, ?_⟩
  · intro a j hj
    obtain ⟨x, hx, rfl⟩ := hsome a j hj
    obtain ⟨h1, h2, j', h3, h4, h5, h6, h7⟩ := hitems x hx
    rw [h3] at hj; cases hj
    unfold Clean
    rw [h6, h7]
    cases hp : x.power with
    | none => simp
    | some p => simp only [Option.getD_some, Option.isSome_some, if_true]; have h8 := h2 p hp; exact ⟨fun h0 => by omega, fun h0 => absurd h0 h8.2⟩
  · intro a j hj hk
    obtain ⟨x, hx, rfl⟩ := hsome a j hj
    obtain ⟨h1, h2, j', h3, h4, h5, h6, h7⟩ := hitems x hx
    rw [h3] at hj; cases hj
    rw [h7] at hk ⊢
    split at hk
    · rename_i hp; rw [if_pos hp]; exact h.key _ _ h1 hk
    · simp at hk
  · intro a j hj hk
    obtain ⟨x, hx, rfl⟩ := hsome a j hj
    obtain ⟨h1, h2, j', h3, h4, h5, h6, h7⟩ := hitems x hx
    rw [h3] at hj; cases hj
    rw [h4] at hk ⊢
    exact h.key _ _ h1 hk
  · intro a j hj hk
    obtain ⟨x, hx, rfl⟩ := hsome a j hj
    obtain ⟨h1, h2, j', h3, h4, h5, h6, h7⟩ := hitems x hx
    rw [h3] at hj; cases hj
    rw [h4]; rw [h5] at hk
    exact h.on _ _ h1 hk
  · intro k p
    have F := fold_items (owner := owner) (fun x hx y hy => (hkeys x hx y hy).1) hnd (k := k) E
    rw [← hu] at F
    by_cases hk : k = 0
    · subst hk
      have : (u.foldl put E).get 0 = E.get 0 := by
        apply fold_other
        intro hin
        obtain ⟨y, hy, h0⟩ := List.mem_map.1 hin
        rw [hu] at hy
        obtain ⟨z, hz, hy⟩ := List.mem_flatMap.1 hy
        exact (hkeys z hz y hy).2.1 h0
      rw [this, h.engine]
      simp
    · cases hgo : s.records.get (owner k) with
      | none =>
        have hno : ∀ x ∈ items, x.acc ≠ owner k := by
          intro x hx he
          have := (hitems x hx).1
          rw [he, hgo] at this; cases this
        rw [F.1 hno, h.engine]
        constructor
        · rintro ⟨-, i, hi, -⟩; rw [hgo] at hi; cases hi
        · rintro ⟨-, i, hi, -⟩
          obtain ⟨x, hx, he⟩ := hsome _ _ hi
          exact absurd he (hno x hx)
      | some i =>
        obtain ⟨x, hx, he, hxi⟩ := hcov _ _ hgo
        obtain ⟨h1, h2, j, h3, h4, h5, h6, h7⟩ := hitems x hx
        rw [F.2 x hx he]
        have hEk : ∀ q, E.get k = some q ↔ x.info.lastPubKey = k ∧ x.info.lastPower = q := by
          intro q
          rw [h.engine]
          constructor
          · rintro ⟨-, i', hi', a1, a2⟩
            rw [hgo] at hi'; cases hi'
            rw [hxi]; exact ⟨a1, a2⟩
          · rintro ⟨a1, a2⟩
            exact ⟨hk, i, hgo, by rw [← hxi]; exact a1, by rw [← hxi]; exact a2⟩
        have hR : (k ≠ 0 ∧ ∃ i, t.records.get (owner k) = some i ∧ i.lastPubKey = k ∧ i.lastPower = p) ↔
            x.power = some p ∧ x.info.pubKey = k := by
          rw [← he]
          constructor
          · rintro ⟨-, i', hi', a1, a2⟩
            rw [h3] at hi'; cases hi'
            rw [h7] at a1; rw [h6] at a2
            cases hp : x.power with
            | none => rw [hp] at a1; simp at a1; exact absurd a1.symm hk
            | some p' => rw [hp] at a1 a2; simp at a1 a2; exact ⟨by rw [a2], a1⟩
          · rintro ⟨a1, a2⟩
            refine ⟨hk, j, h3, ?_, ?_⟩
            · rw [h7, a1]; simpa using a2
            · rw [h6, a1]; rfl
        rw [hR]
        have hcl := h.clean _ _ h1
        cases hp : x.power with
        | none =>
          simp only [reduceCtorEq, false_and, iff_false]
          simp only [contrib]
          split
          · rename_i h0
            simp only [List.foldl_cons, List.foldl_nil, put_get]
            split
            · simp
            · rename_i hne
              intro hE
              exact hne ((hEk p).1 hE).1.symm
          · rename_i h0
            simp only [List.foldl_nil]
            intro hE
            have := (hEk p).1 hE
            rw [ne_eq, not_not] at h0
            exact hk (this.1.symm.trans (hcl.1 h0))
        | some p' =>
          obtain ⟨hp0, hpk⟩ := h2 p' hp
          simp only [Option.some.injEq]
          simp only [contrib]
          by_cases hc : x.info.pubKey ≠ x.info.lastPubKey ∨ x.info.lastPower ≠ p'
          · rw [if_pos hc, List.foldl_append]
            simp only [List.foldl_cons, List.foldl_nil, put_get]
            by_cases hkk : k = x.info.pubKey
            · rw [if_pos hkk, if_neg (by omega)]
              simp only [Option.some.injEq]
              exact ⟨fun h => ⟨h, hkk.symm⟩, fun h => h.1⟩
            · rw [if_neg hkk]
              constructor
              · intro hE
                exfalso
                split at hE
                · simp only [List.foldl_cons, List.foldl_nil, put_get] at hE
                  split at hE
                  · simp at hE
                  · rename_i hne; exact hne ((hEk p).1 hE).1.symm
                · rename_i hno
                  simp only [List.foldl_nil] at hE
                  have hl := ((hEk p).1 hE).1
                  exact hno ⟨fun heq => hkk (heq.trans hl).symm, by rw [hl]; exact hk⟩
              · rintro ⟨-, h9⟩; exact absurd h9.symm hkk
          · rw [if_neg hc]
            simp only [ne_eq, not_or, not_not] at hc
            rw [if_neg (by intro h9; exact h9.1 hc.1)]
            simp only [List.append_nil, List.foldl_nil]
            rw [hEk, hc.1, hc.2]
            exact ⟨fun h => ⟨h.2, h.1⟩, fun h => ⟨h.2, h.1⟩⟩

end Verif.Noding
