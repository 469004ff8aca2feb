import Verif.Referral.ExportImport
import Verif.Referral.Retire4

/-! Property C77: export and import of the referral module. -/
namespace Verif.Referral

/-! ### Specification -/

/-- `w` is what `v` becomes: the place in the structure is the same; unless the account is banished, its dates and its wish to move are the
same, and so is its status if it is about to be lowered. -/
structure Kept (v w : Info) : Prop where
  referrer : w.referrer = v.referrer
  referrals : w.referrals = v.referrals
  banished : w.banished = v.banished
  compressionAt : v.banished = false → w.compressionAt = v.compressionAt
  banishmentAt : v.banished = false → w.banishmentAt = v.banishmentAt
  downgradeAt : v.banished = false → w.downgradeAt = v.downgradeAt
  transition : v.banished = false → w.transition = v.transition
  status : v.banished = false → v.downgradeAt ≠ none → w.status = v.status

/-- A chain to which nothing was imported so far -/
structure Unborn (s : State) : Prop where
  store : s.store = KV.empty
  index : s.index = []
  purse : ∀ a, s.purse a = {}

/-! ### Proofs -/

theorem fields_loop {β : Type} (f : Key → Option β) (F : β → Info → Info) (u : Key → β → Info → Act (Info × Unit))
    (hu : ∀ k x v s, ∃ i, u k x v s = (.ok (F x v, ()), { s with index := i })) : ∀ (l : List Key) (s : State), l.Nodup →
    ∃ t, M.forEach (l.filterMap fun k => (f k).map fun x => (k, x)) (fun y => update y.1 false (u y.1 y.2)) s = (.ok (), t) ∧
      ∀ k, t.work.get k = if k ∈ l then (match f k with | some x => some (F x (infoOf s.work k)) | none => s.work.get k) else s.work.get k := by
  intro l
  induction l with
  | nil => intro s _; exact ⟨s, rfl, fun k => by simp⟩
  | cons a l ih =>
    intro s hn
    have hn := List.nodup_cons.1 hn
    cases hf : f a with
    | none =>
      obtain ⟨t, ht, h⟩ := ih s hn.2
      have : (a :: l).filterMap (fun k => (f k).map fun x => (k, x)) = l.filterMap fun k => (f k).map fun x => (k, x) := by
        rw [List.filterMap_cons, hf]; rfl
      rw [this]
      refine ⟨t, ht, fun k => ?_⟩
      rw [h k]
      by_cases hk : k = a
      · subst hk; simp [hn.1, hf]
      · simp [hk]
    | some x =>
      have : (a :: l).filterMap (fun k => (f k).map fun x => (k, x)) = (a, x) :: l.filterMap fun k => (f k).map fun x => (k, x) := by
        rw [List.filterMap_cons, hf]; rfl
      rw [this]
      obtain ⟨i, hi⟩ := hu a x (infoOf s.work a) s
      have h1 : update a false (u a x) s = (.ok (), { s with index := i, work := s.work.set a (F x (infoOf s.work a)) }) := by
        unfold update recover
        rw [M.bind_ok (M.get_apply s), M.bind_ok hi]
        rfl
      obtain ⟨t, ht, h⟩ := ih { s with index := i, work := s.work.set a (F x (infoOf s.work a)) } hn.2
      refine ⟨t, ?_, fun k => ?_⟩
      · show ((update a false (u a x)) >>= fun _ => M.forEach _ _) s = _
        rw [M.bind_ok h1, ht]
      · rw [h k]
        dsimp only
        rw [infoOf_set, KV.get_set]
        by_cases hk : k = a
        · subst hk; simp [hn.1, hf]
        · simp [hk]

theorem filterMap_pairs {β γ : Type} (l : List Key) (f : Key → Option γ) (g : Key → γ → β) :
    l.filterMap (fun k => (f k).map fun t => (k, g k t)) = l.filterMap fun k => ((f k).map (g k)).map fun x => (k, x) := by
  congr 1
  funext k
  cases f k <;> rfl

/-- What the dates, statuses and transitions make of a record -/
def dressed (v w : Info) : Info :=
  { w with
    compressionAt := if v.compressionAt.isSome then v.compressionAt else w.compressionAt
    banishmentAt := if v.banishmentAt.isSome then v.banishmentAt else w.banishmentAt
    downgradeAt := if v.downgradeAt.isSome then v.downgradeAt else w.downgradeAt
    status := if v.downgradeAt.isSome then v.status else w.status
    transition := if v.transition.isSome then v.transition else w.transition }

theorem importFields_ok (st : KV Nat Info) (l : List Key) (hn : l.Nodup) (s : State) (hl : ∀ k ∈ l, (s.work.get k).isSome = true) :
    ∃ t, importFields (fileOf st l) s = (.ok true, t) ∧
      ∀ k, t.work.get k = if k ∈ l then some (dressed (infoOf st k) (infoOf s.work k)) else s.work.get k := by
  unfold importFields
  obtain ⟨s1, h1, g1⟩ := fields_loop (fun k => (infoOf st k).compressionAt) (fun x v => { v with compressionAt := some x })
    (fun _ x v => pure ({ v with compressionAt := some x }, ())) (fun _ _ _ s => ⟨s.index, rfl⟩) l s hn
  obtain ⟨s2, h2, g2⟩ := fields_loop (fun k => (infoOf st k).banishmentAt) (fun x v => { v with banishmentAt := some x })
    (fun _ x v => pure ({ v with banishmentAt := some x }, ())) (fun _ _ _ s => ⟨s.index, rfl⟩) l s1 hn
  obtain ⟨s3, h3, g3⟩ := fields_loop (fun k => (infoOf st k).downgradeAt.map fun t => ((infoOf st k).status, t))
    (fun x v => { v with status := x.1, downgradeAt := some x.2 })
    (fun k x v => do
      let w ← setStatus v x.1 k
      pure ({ w with downgradeAt := some x.2 }, ())) (by
      intro k x v s
      unfold setStatus
      by_cases h : v.status = x.1
      · refine ⟨s.index, ?_⟩
        simp only [if_pos h, M.bind_apply, M.get_apply, M.pure_apply]
        rw [← h]
      · refine ⟨reindex s.index v.status x.1 k, ?_⟩
        simp only [if_neg h, M.bind_apply, M.get_apply, M.pure_apply, M.set_apply]) l s2 hn
  obtain ⟨s4, h4, g4⟩ := fields_loop (fun k => (infoOf st k).transition) (fun x v => { v with transition := some x })
    (fun _ x v => pure ({ v with transition := some x }, ())) (fun _ _ _ s => ⟨s.index, rfl⟩) l s3 hn
  have h3' : M.forEach (fileOf st l).downgrades (fun x => update x.1 false fun v => do
      let w ← setStatus v x.2.1 x.1
      pure ({ w with downgradeAt := some x.2.2 }, ())) s2 = (.ok (), s3) := by
    have : (fileOf st l).downgrades = l.filterMap fun k => ((infoOf st k).downgradeAt.map fun t => ((infoOf st k).status, t)).map fun x => (k, x) :=
      filterMap_pairs l _ fun k t => ((infoOf st k).status, t)
    rw [this]; exact h3
  refine ⟨s4, ?_, fun k => ?_⟩
  · have h1' : M.forEach (fileOf st l).compressions (fun x => update x.1 false fun v => pure ({ v with compressionAt := some x.2 }, ())) s =
      (.ok (), s1) := h1
    have h2' : M.forEach (fileOf st l).banishment (fun x => update x.1 false fun v => pure ({ v with banishmentAt := some x.2 }, ())) s1 =
      (.ok (), s2) := h2
    have h4' : M.forEach (fileOf st l).transitions (fun x => update x.1 false fun v => pure ({ v with transition := some x.2 }, ())) s3 =
      (.ok (), s4) := h4
    rw [M.bind_ok h1', M.bind_ok h2', M.bind_ok h3', M.bind_ok h4']
    rfl
  · by_cases hk : k ∈ l
    · rw [if_pos hk]
      obtain ⟨w, hw⟩ := Option.isSome_iff_exists.1 (hl k hk)
      have i0 : infoOf s.work k = w := by unfold infoOf; rw [hw]; rfl
      have e1 : s1.work.get k = some { w with compressionAt := if (infoOf st k).compressionAt.isSome then (infoOf st k).compressionAt else w.compressionAt } := by
        rw [g1 k, if_pos hk, i0, hw]; cases (infoOf st k).compressionAt <;> rfl
      have i1 := infoOf_get e1
      have e2 : s2.work.get k = some { infoOf s1.work k with banishmentAt := if (infoOf st k).banishmentAt.isSome then (infoOf st k).banishmentAt else w.banishmentAt } := by
        rw [g2 k, if_pos hk, e1, i1]; cases (infoOf st k).banishmentAt <;> rfl
      have i2 := infoOf_get e2
      have e3 : s3.work.get k = some { infoOf s2.work k with
          downgradeAt := if (infoOf st k).downgradeAt.isSome then (infoOf st k).downgradeAt else w.downgradeAt
          status := if (infoOf st k).downgradeAt.isSome then (infoOf st k).status else w.status } := by
        rw [g3 k, if_pos hk, e2, i2, i1]; cases (infoOf st k).downgradeAt <;> rfl
      have i3 := infoOf_get e3
      rw [g4 k, if_pos hk, e3, i3, i2, i1, i0]
      unfold dressed
      cases (infoOf st k).transition <;> rfl
    · rw [if_neg hk, g4 k, if_neg hk, g3 k, if_neg hk, g2 k, if_neg hk, g1 k, if_neg hk]

theorem forEach_held {α : Type} {P : Info → Prop} {x : Prop} {f : α → Act Unit} (hf : ∀ a s t, f a s = (.ok (), t) → Held P x s → Held P x t) :
    ∀ (l : List α) (s t : State), M.forEach l f s = (.ok (), t) → Held P x s → Held P x t := by
  intro l
  induction l with
  | nil => intro s t h hs; simp [M.forEach] at h; rw [← h]; exact hs
  | cons a l ih =>
    intro s t h hs
    rw [M.forEach_cons, M.bind_ok_iff] at h
    obtain ⟨_, s1, h1, h2⟩ := h
    exact ih s1 t h2 (hf a s s1 h1 hs)

/-- The index follows the statuses. -/
theorem importFields_held {g : GenesisFile} {s t : State} {b : Bool} (h : importFields g s = (.ok b, t)) (hs : Held (fun _ => True) True s) :
    Held (fun _ => True) True t := by
  unfold importFields at h
  have quiet : ∀ (k : Key) (F : Info → Info) (s t : State), (∀ v, (F v).status = v.status) →
      update k false (fun v => pure (F v, ())) s = (.ok (), t) → Held (fun _ => True) True s → Held (fun _ => True) True t := by
    intro k F s t hF h hs
    refine update_held lenient_true h fun w s1 h1 => ?_
    simp at h1
    obtain ⟨rfl, rfl⟩ := h1
    exact (hs.mid k).change trivial (.inl (hF _))
  rw [M.bind_ok_iff] at h
  obtain ⟨_, s1, h1, h⟩ := h
  rw [M.bind_ok_iff] at h
  obtain ⟨_, s2, h2, h⟩ := h
  rw [M.bind_ok_iff] at h
  obtain ⟨_, s3, h3, h⟩ := h
  rw [M.bind_ok_iff] at h
  obtain ⟨_, s4, h4, h⟩ := h
  simp at h
  obtain ⟨rfl, rfl⟩ := h
  have d1 := forEach_held (fun a s t h hs => quiet a.1 (fun v => { v with compressionAt := some a.2 }) s t (fun _ => rfl) h hs) _ _ _ h1 hs
  have d2 := forEach_held (fun a s t h hs => quiet a.1 (fun v => { v with banishmentAt := some a.2 }) s t (fun _ => rfl) h hs) _ _ _ h2 d1
  have d3 := forEach_held (fun a s t h hs => by
    refine update_held lenient_true h fun w s1 h1 => ?_
    rw [M.bind_ok_iff] at h1
    obtain ⟨u, s2, h1, h2⟩ := h1
    simp at h2
    obtain ⟨rfl, rfl⟩ := h2
    exact (setStatus_mid h1 (hs.mid a.1) trivial).1.change trivial (.inl rfl)) _ _ _ h3 d2
  exact forEach_held (fun a s t h hs => quiet a.1 (fun v => { v with transition := some a.2 }) s t (fun _ => rfl) h hs) _ _ _ h4 d3

/-- A banished account -/
def banishedInfo (r : Option Key) : Info := { referrer := r, banished := true }

theorem importBanished_ok {s : State} (hp : Penniless s) (k : Key) (r : Option Key) :
    importBanished k r s = (.ok (), { s with store := s.store.set k (banishedInfo r) }) := by
  unfold importBanished
  rw [M.modify_apply, hp.balance, hp.delegated]
  congr 4
  funext w l
  cases w <;> simp

theorem banished_loop : ∀ (l : List (Key × Option Key)) (s : State), Penniless s → (l.map (·.1)).Nodup →
    ∃ t, M.forEach l (fun x => importBanished x.1 x.2) s = (.ok (), t) ∧ t.index = s.index ∧ (∀ k r, (k, r) ∈ l → t.store.get k = some (banishedInfo r)) ∧
      ∀ k, k ∉ l.map (·.1) → t.store.get k = s.store.get k := by
  intro l
  induction l with
  | nil => intro s _ _; exact ⟨s, rfl, rfl, (fun _ _ h => nomatch h), fun _ _ => rfl⟩
  | cons x l ih =>
    intro s hp hn
    have hn := List.nodup_cons.1 hn
    obtain ⟨t, ht, hi, h1, h2⟩ := ih { s with store := s.store.set x.1 (banishedInfo x.2) } hp hn.2
    refine ⟨t, ?_, hi, ?_, ?_⟩
    · show ((importBanished x.1 x.2) >>= fun _ => M.forEach l _) s = _
      rw [M.bind_ok (importBanished_ok hp x.1 x.2), ht]
    · intro k r hk
      rcases List.mem_cons.1 hk with hk | hk
      · rw [← hk] at hn
        rw [h2 k hn.1]
        show (s.store.set x.1 (banishedInfo x.2)).get k = _
        rw [← hk, KV.get_set_self]
      · exact h1 k r hk
    · intro k hk
      rw [List.map_cons, List.mem_cons] at hk
      push Not at hk
      rw [h2 k hk.2]
      show (s.store.set x.1 (banishedInfo x.2)).get k = _
      rw [KV.get_set, if_neg hk.1]

theorem mem_banishedOf {st : KV Nat Info} {k : Key} {r : Option Key} :
    (k, r) ∈ banishedOf st ↔ (infoOf st k).banished = true ∧ (infoOf st k).referrer = r := by
  unfold banishedOf
  rw [List.mem_map]
  constructor
  · rintro ⟨⟨a, v⟩, h, e⟩
    injection e with e1 e2
    subst e1
    rw [List.mem_filter] at h
    have h1 := KV.mem_entries.1 h.1
    have h2 : infoOf st a = v := by unfold infoOf; rw [h1]; rfl
    show (infoOf st a).banished = true ∧ (infoOf st a).referrer = r
    rw [h2]
    exact ⟨h.2, e2⟩
  · rintro ⟨h1, h2⟩
    cases hv : st.get k with
    | none =>
      have : infoOf st k = {} := by unfold infoOf; rw [hv]; rfl
      rw [this] at h1; cases h1
    | some v =>
      have h3 : infoOf st k = v := by unfold infoOf; rw [hv]; rfl
      rw [h3] at h1 h2
      exact ⟨(k, v), List.mem_filter.2 ⟨KV.mem_entries.2 hv, h1⟩, by rw [h2]⟩

theorem banishedOf_nodup {st : KV Nat Info} : ((banishedOf st).map (·.1)).Nodup := by
  unfold banishedOf
  rw [List.map_map]
  exact keys_nodup _ (List.Pairwise.sublist List.filter_sublist st.sorted)

/-- The import of an exported file, record by record -/
theorem import_export {e : Env} (he : e.Fine) {s s0 : State} (hs : Good s)
    (hb : ∀ k, (infoOf s.store k).banished = true → (infoOf s.store k).referrals = []) (h0 : Unborn s0) :
    ∃ g t, exportGenesis s.store = some g ∧ importGenesis e g s0 = (.ok (), t) ∧ (Sync t.index fun j => (infoOf t.store j).status) ∧
      ∀ k, t.store.get k =
        if s.store.has k = false then none
        else if (infoOf s.store k).banished = true then some (banishedInfo (infoOf s.store k).referrer)
        else some (dressed (infoOf s.store k) (plainInfo (infoOf s.store k).referrer (infoOf s.store k).referrals)) := by
  have hc := hs.consistent
  have hlive : ∀ k, k ∈ upTo s.store (s.store.entries.length + 1) ↔ s.store.has k = true ∧ (infoOf s.store k).banished = false := by
    intro k
    rw [mem_upTo]
    constructor
    · rintro ⟨i, -, h⟩; exact level_live hc i k h
    · rintro ⟨h1, h2⟩
      obtain ⟨n, hn⟩ := level_reach hc hs.acc hb k h1 h2 (fun c p hcp => hs.here c p hcp)
      refine ⟨n, ?_, hn⟩
      by_contra hlt
      have : ∀ j, s.store.entries.length ≤ j → level s.store j = [] := by
        intro j hj
        induction j, hj using Nat.le_induction with
        | base => exact level_empty hc
        | succ j hj ihj => show (level s.store j).flatMap _ = []; rw [ihj]; rfl
      rw [this n (by omega)] at hn
      cases hn
  have stage0 : Stage s.store [] [] s0 := by
    refine ⟨fun k => ?_, fun k p hk => ?_, h0.purse, h0.index⟩
    · rw [h0.store]; rfl
    · cases hk
  obtain ⟨s1, h1, g1⟩ := stage_tops he (topLevelOf s.store) [] s0 stage0 (by simpa using topLevel_nodup)
    (fun k hk => (mem_topLevel.1 hk).2.2)
  obtain ⟨s2, h2, g2⟩ := stage_all hc he (s.store.entries.length + 1) s1 (by simpa using g1)
  rw [← forEach_entries] at h2
  obtain ⟨s3, h3, i3, g3, g3'⟩ := banished_loop (banishedOf s.store) s2 g2.purse banishedOf_nodup
  have get2 : ∀ k, s2.store.get k = if k ∈ upTo s.store (s.store.entries.length + 1) then
      some (plainInfo (infoOf s.store k).referrer (infoOf s.store k).referrals) else none := by
    intro k
    rw [g2.get k, upTo_pairs, pairs_of _ _ _ (upTo_nodup hc _)]
    have hlast : upTo s.store (s.store.entries.length + 1 + 1) = upTo s.store (s.store.entries.length + 1) := by
      show upTo s.store (s.store.entries.length + 1) ++ level s.store (s.store.entries.length + 1) = _
      have : level s.store (s.store.entries.length + 1) = [] := by
        show (level s.store s.store.entries.length).flatMap _ = []
        rw [level_empty hc]; rfl
      rw [this, List.append_nil]
    rw [hlast]
    split <;> rfl
  have nb : ∀ k, k ∉ (banishedOf s.store).map (·.1) ↔ (infoOf s.store k).banished = false := by
    intro k
    constructor
    · intro h
      cases hk : (infoOf s.store k).banished with
      | false => rfl
      | true => exact absurd (List.mem_map.2 ⟨(k, _), mem_banishedOf.2 ⟨hk, rfl⟩, rfl⟩) h
    · intro h hk
      obtain ⟨⟨a, r⟩, hx, e⟩ := List.mem_map.1 hk
      subst e
      have := (mem_banishedOf.1 hx).1
      rw [h] at this; cases this
  obtain ⟨s4, h4, g4⟩ := importFields_ok s.store (upTo s.store (s.store.entries.length + 1)) (upTo_nodup hc _) s3.fresh (by
    intro k hk
    show (s3.store.get k).isSome = true
    rw [g3' k ((nb k).2 ((hlive k).1 hk).2), get2 k, if_pos hk]; rfl)
  have low : ∀ k, (infoOf s3.store k).status < 5 := by
    intro k
    cases hbk : (infoOf s.store k).banished with
    | true => rw [infoOf_get (g3 k _ (mem_banishedOf.2 ⟨hbk, rfl⟩))]; exact Nat.zero_lt_succ _
    | false =>
      have := g3' k ((nb k).2 hbk)
      rw [get2 k] at this
      unfold infoOf
      rw [this]
      split
      · show (1 : Nat) < 5; omega
      · show (0 : Nat) < 5; omega
  have held : Held (fun _ => True) True s3.fresh := by
    refine ⟨fun _ => trivial, fun _ => ?_⟩
    have e : s3.fresh.index = [] := by show s3.index = []; rw [i3]; exact g2.index
    rw [e]
    refine ⟨List.nodup_nil, fun n j => ⟨fun h => (nomatch h), fun h => ?_⟩⟩
    have h1 := low j
    have h2 : (infoOf s3.store j).status = n := h.2
    omega
  refine ⟨_, { s4 with store := s4.work }, export_eq hc, ?_, (importFields_held h4 held).2 trivial, fun k => ?_⟩
  · unfold importGenesis
    have h1' : M.forEach (fileOf s.store (upTo s.store (s.store.entries.length + 1))).topLevel (fun k => must (addTopLevel e k)) s0 = (.ok (), s1) := h1
    have h2' : M.forEach (fileOf s.store (upTo s.store (s.store.entries.length + 1))).other
      (fun r => M.forEach r.2 fun c => must (appendChild e r.1 c true false)) s1 = (.ok (), s2) := h2
    have h3' : M.forEach (fileOf s.store (upTo s.store (s.store.entries.length + 1))).banished (fun x => importBanished x.1 x.2) s2 = (.ok (), s3) := h3
    rw [M.bind_ok h1', M.bind_ok h2', M.bind_ok h3', bunch_fine he h4]
  · show s4.work.get k = _
    rw [g4 k]
    have hw : s3.fresh.work = s3.store := rfl
    rw [hw]
    by_cases hh : s.store.has k = false
    · rw [if_pos hh]
      have hi : infoOf s.store k = {} := infoOf_of_not_has hh
      have hnl : k ∉ upTo s.store (s.store.entries.length + 1) := by rw [hlive, hh]; simp
      rw [if_neg hnl, g3' k ((nb k).2 (by rw [hi])), get2 k, if_neg hnl]
    · rw [if_neg hh]
      have hh : s.store.has k = true := by simpa using hh
      by_cases hbk : (infoOf s.store k).banished = true
      · have hnl : k ∉ upTo s.store (s.store.entries.length + 1) := by rw [hlive, hbk]; simp
        rw [if_pos hbk, if_neg hnl, g3 k _ (mem_banishedOf.2 ⟨hbk, rfl⟩)]
      · have hbk' : (infoOf s.store k).banished = false := by simpa using hbk
        have hl := (hlive k).2 ⟨hh, hbk'⟩
        have hi : infoOf s3.store k = plainInfo (infoOf s.store k).referrer (infoOf s.store k).referrals := by
          unfold infoOf; rw [g3' k ((nb k).2 hbk'), get2 k, if_pos hl]; rfl
        rw [if_neg hbk, if_pos hl, hi]

theorem isSome_self {α : Type} (o : Option α) : (if o.isSome then o else none) = o := by cases o <;> rfl

/-! ### Theorems -/

/-- C77 for states in which banished accounts have no referrals: the export ends, the import succeeds, the new chain has the same accounts, what
is written about them is kept, and the index of high statuses is exact. -/
theorem C77_round_trip_partial (e : Env) (he : ∀ x k, e.call x k = true) (s s0 : State) (hs : Good s)
    (hb : ∀ k, (infoOf s.store k).banished = true → (infoOf s.store k).referrals = []) (h0 : Unborn s0) :
    ∃ g t, exportGenesis s.store = some g ∧ importGenesis e g s0 = (.ok (), t) ∧
      (∀ k, t.store.has k = s.store.has k ∧ Kept (infoOf s.store k) (infoOf t.store k)) ∧
      Sync t.index (fun k => (infoOf t.store k).status) := by
  obtain ⟨g, t, h1, h2, h4, h3⟩ := import_export he hs hb h0
  refine ⟨g, t, h1, h2, fun k => ?_, h4⟩
  have h3 := h3 k
  cases hh : s.store.has k with
  | false =>
    rw [if_pos hh] at h3
    have i1 : infoOf s.store k = {} := infoOf_of_not_has hh
    have i2 : infoOf t.store k = {} := by unfold infoOf; rw [h3]; rfl
    refine ⟨by unfold KV.has; rw [h3]; rfl, ?_⟩
    rw [i1, i2]
    exact ⟨rfl, rfl, rfl, fun _ => rfl, fun _ => rfl, fun _ => rfl, fun _ => rfl, fun _ _ => rfl⟩
  | true =>
    rw [if_neg (by simp [hh])] at h3
    cases hbk : (infoOf s.store k).banished with
    | true =>
      rw [if_pos hbk] at h3
      have i2 : infoOf t.store k = banishedInfo (infoOf s.store k).referrer := by unfold infoOf; rw [h3]; rfl
      refine ⟨by unfold KV.has; rw [h3]; rfl, ?_⟩
      rw [i2]
      refine ⟨rfl, (hb k hbk).symm, hbk.symm, ?_, ?_, ?_, ?_, ?_⟩ <;> (intro h; rw [hbk] at h; cases h)
    | false =>
      rw [if_neg (by simp [hbk])] at h3
      have i2 : infoOf t.store k = dressed (infoOf s.store k) (plainInfo (infoOf s.store k).referrer (infoOf s.store k).referrals) := by
        show (t.store.get k).getD {} = _
        rw [h3]; rfl
      refine ⟨by unfold KV.has; rw [h3]; rfl, ?_⟩
      rw [i2]
      refine ⟨rfl, rfl, hbk.symm, fun _ => isSome_self _, fun _ => isSome_self _, fun _ => isSome_self _, fun _ => isSome_self _, fun _ h => ?_⟩
      exact if_pos (Option.isSome_iff_ne_none.2 h)

end Verif.Referral
