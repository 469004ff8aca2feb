import Verif.Referral.ExportLevels
import Verif.Referral.Retire2

/-! What the import of an exported file does. -/
namespace Verif.Referral

/-- A record as the import leaves it before dates are set -/
def plainInfo (r : Option Key) (l : List Key) : Info := { status := 1, referrer := r, referrals := l }

theorem plain_check (k : Key) (r : Option Key) (l : List Key) (s : State) : checkStatus k (plainInfo r l) s = (.ok (plainInfo r l), s) := rfl

theorem plain_add (r : Option Key) (l : List Key) (n : Nat) : (plainInfo r l).add (money 0 0) n = plainInfo r l := by
  unfold Info.add plainInfo
  congr 1
  funext w j
  cases w <;> simp [money]

theorem plain_new (r : Option Key) : newInfo r 0 0 = plainInfo r [] := by
  unfold newInfo plainInfo
  congr 1
  funext w j
  cases w <;> simp

theorem set_same {m : KV Nat Info} {k : Key} {v : Info} (h : m.get k = some v) : m.set k v = m := by
  refine KV.ext fun j => ?_
  rw [KV.get_set]
  split
  · rename_i e; rw [e, h]
  · rfl

/-- All records are plain and their referrers are there. -/
def Plain (m : KV Nat Info) : Prop := ∀ k v, m.get k = some v → ∃ r l, v = plainInfo r l ∧ ∀ p, r = some p → (m.get p).isSome = true

theorem climb_plain : ∀ (n l : Nat) (a : Option Key) (s : State), Plain s.work → (∀ p, a = some p → (s.work.get p).isSome = true) →
    ∃ cs, climb true (fun l k v => do
      addCall .stakeChanged k
      pure (v.add (money 0 0) l)) n l a s = (.ok (), { s with calls := cs }) := by
  intro n
  induction n with
  | zero => intro l a s _ _; exact ⟨s.calls, rfl⟩
  | succ n ih =>
    intro l a s hs ha
    cases a with
    | none => exact ⟨s.calls, rfl⟩
    | some p =>
      obtain ⟨v, hv⟩ := Option.isSome_iff_exists.1 (ha p rfl)
      obtain ⟨r, c, rfl, hr⟩ := hs p v hv
      have hi : infoOf s.work p = plainInfo r c := by unfold infoOf; rw [hv]; rfl
      have h1 : update p true (fun v => do
          let w ← (do addCall .stakeChanged p; pure (v.add (money 0 0) l) : Act Info)
          pure (w, v.referrer)) s = (.ok r, { s with calls := (.stakeChanged, p) :: s.calls }) := by
        unfold update recover
        rw [M.bind_ok (M.get_apply s), hi]
        have h2 : ((do
            let w ← (do addCall .stakeChanged p; pure ((plainInfo r c).add (money 0 0) l) : Act Info)
            pure (w, (plainInfo r c).referrer)) : Act (Info × Option Key)) s =
            (.ok (plainInfo r c, r), { s with calls := (.stakeChanged, p) :: s.calls }) := by
          rw [plain_add]; rfl
        rw [M.bind_ok h2]
        dsimp only
        rw [if_pos rfl, M.bind_ok (plain_check p r c _)]
        have h3 : put p (plainInfo r c) { s with calls := (.stakeChanged, p) :: s.calls } =
            (.ok (), { s with calls := (.stakeChanged, p) :: s.calls }) := by
          show (Res.ok (), ({ s with calls := (.stakeChanged, p) :: s.calls, work := s.work.set p (plainInfo r c) } : State)) = _
          rw [set_same hv]
        rw [M.bind_ok h3]
        rfl
      obtain ⟨cs, h4⟩ := ih (l + 1) r { s with calls := (.stakeChanged, p) :: s.calls } hs hr
      refine ⟨cs, ?_⟩
      unfold climb
      rw [M.bind_ok h1, h4]

/-- Nobody has anything. -/
def Penniless (s : State) : Prop := ∀ a, s.purse a = {}

theorem Penniless.balance {s : State} (h : Penniless s) (k : Key) : s.balance k = 0 := by unfold State.balance; rw [h]; rfl
theorem Penniless.delegated {s : State} (h : Penniless s) (k : Key) : s.delegated k = 0 := by unfold State.delegated; rw [h]

/-- The callbacks succeed. -/
def Env.Fine (e : Env) : Prop := ∀ x k, e.call x k = true

theorem commit_fine {e : Env} (he : e.Fine) (s : State) : commit e s = (.ok (), { s with store := s.work }) := by
  unfold commit
  rw [M.bind_ok (M.modify_apply _ s), M.bind_ok (M.get_apply _)]
  have : (!(s.calls.all fun c => e.call c.1 c.2)) = false := by
    simp only [Bool.not_eq_false', List.all_eq_true]
    intro c _; exact he _ _
  dsimp only
  rw [this]
  rfl

theorem bunch_fine {e : Env} (he : e.Fine) {m : Act Bool} {s t : State} (h : m s.fresh = (.ok true, t)) :
    bunch e m s = (.ok (), { t with store := t.work }) := by
  have h0 : (bunch e m) s = (m >>= fun b => if b then commit e else pure ()) s.fresh := rfl
  rw [h0, M.bind_ok h, if_pos rfl, commit_fine he]

theorem must_ok {m : Act Unit} {s t : State} (h : m s = (.ok (), t)) : must m s = (.ok (), t) := by unfold must; rw [h]

/-- One account without referrer -/
theorem import_top {e : Env} (he : e.Fine) {s : State} (hp : Penniless s) {k : Key} (hk : s.store.get k = none) :
    ∃ t, must (addTopLevel e k) s = (.ok (), t) ∧ t.purse = s.purse ∧ t.index = s.index ∧ t.store = s.store.set k (plainInfo none []) := by
  refine ⟨_, must_ok (t := { s with work := s.store.set k (plainInfo none []), calls := [], store := s.store.set k (plainInfo none []) }) ?_,
    rfl, rfl, rfl⟩
  unfold addTopLevel recover
  have hh : s.store.has k = false := by unfold KV.has; rw [hk]; rfl
  rw [M.bind_ok (M.get_apply s), hh, M.bind_ok (M.errIf_false s), hp.balance, hp.delegated, plain_new]
  have h1 : (do put k (plainInfo none []); pure true : Act Bool) s.fresh = (.ok true, { s.fresh with work := s.store.set k (plainInfo none []) }) := rfl
  rw [bunch_fine he h1]
  rfl

/-- One account with a referrer that is there already -/
theorem import_child {e : Env} (he : e.Fine) {s : State} (hp : Penniless s) (hs : Plain s.store) {p c : Key} {r : Option Key} {l : List Key}
    (h1 : s.store.get p = some (plainInfo r l)) (h2 : s.store.get c = none) :
    ∃ t, must (appendChild e p c true false) s = (.ok (), t) ∧ t.purse = s.purse ∧ t.index = s.index ∧
      t.store = (s.store.set c (plainInfo (some p) [])).set p (plainInfo r (l ++ [c])) := by
  have hne : p ≠ c := by intro h; rw [h, h2] at h1; cases h1
  have hh : s.store.has c = false := by unfold KV.has; rw [h2]; rfl
  have hr : ∀ q, r = some q → (s.store.get q).isSome = true := by
    obtain ⟨r', l', e1, e2⟩ := hs p _ h1
    have : r = r' := congrArg Info.referrer e1
    subst this; exact e2
  have hw : Plain ((s.store.set c (plainInfo (some p) [])).set p (plainInfo r (l ++ [c]))) := by
    have hsome : ∀ q, (s.store.get q).isSome = true → (((s.store.set c (plainInfo (some p) [])).set p (plainInfo r (l ++ [c]))).get q).isSome = true := by
      intro q hq
      rw [KV.get_set, KV.get_set]
      split
      · rfl
      · split
        · rfl
        · exact hq
    intro k v hv
    rw [KV.get_set, KV.get_set] at hv
    split at hv
    · injection hv with hv
      exact ⟨r, _, hv.symm, fun q hq => hsome q (hr q hq)⟩
    · split at hv
      · injection hv with hv
        refine ⟨some p, _, hv.symm, fun q hq => ?_⟩
        injection hq with hq; subst hq
        rw [KV.get_set_self]; rfl
      · obtain ⟨r', l', e1, e2⟩ := hs k v hv
        exact ⟨r', l', e1, fun q hq => hsome q (e2 q hq)⟩
  have hr' : ∀ q, r = some q → (((s.store.set c (plainInfo (some p) [])).set p (plainInfo r (l ++ [c]))).get q).isSome = true := by
    intro q hq
    rw [KV.get_set, KV.get_set]
    split
    · rfl
    · split
      · rfl
      · exact hr q hq
  obtain ⟨cs, hc⟩ := climb_plain 9 2 r { s with
    work := (s.store.set c (plainInfo (some p) [])).set p (plainInfo r (l ++ [c])), calls := [(.stakeChanged, p)] } hw hr'
  have hi : infoOf (s.store.set c (plainInfo (some p) [])) p = plainInfo r l := by
    rw [infoOf_set, if_neg hne]; unfold infoOf; rw [h1]; rfl
  have hb : appendBody p c true false s.fresh = (.ok true, { s with
      work := (s.store.set c (plainInfo (some p) [])).set p (plainInfo r (l ++ [c])), calls := cs }) := by
    unfold appendBody
    rw [M.bind_ok (M.get_apply _)]
    dsimp only
    have b1 : s.fresh.balance c = 0 := hp.balance c
    have b2 : s.fresh.delegated c = 0 := hp.delegated c
    rw [b1, b2, plain_new, if_neg (by simp)]
    have hput : put c (plainInfo (some p) []) s.fresh = (.ok (), { s with work := s.store.set c (plainInfo (some p) []), calls := [] }) := rfl
    rw [M.bind_ok hput]
    have hup : update p true (fun v => do
        addCall .stakeChanged p
        let w := { v.add (money 0 0) 1 with referrals := v.referrals ++ [c] }
        pure (w, (v.referrer, !true && w.closed s.fresh.now s.fresh.month))) { s with work := s.store.set c (plainInfo (some p) []), calls := [] } =
        (.ok (r, false), { s with
          work := (s.store.set c (plainInfo (some p) [])).set p (plainInfo r (l ++ [c])), calls := [(.stakeChanged, p)] }) := by
      unfold update recover
      rw [M.bind_ok (M.get_apply _)]
      dsimp only
      rw [hi, plain_add]
      rfl
    rw [M.bind_ok hup]
    dsimp only
    rw [M.bind_ok (M.errIf_false _), M.bind_ok hc]
    rfl
  refine ⟨_, must_ok (t := { s with
      work := (s.store.set c (plainInfo (some p) [])).set p (plainInfo r (l ++ [c])), calls := cs
      store := (s.store.set c (plainInfo (some p) [])).set p (plainInfo r (l ++ [c])) }) ?_, rfl, rfl, rfl⟩
  unfold appendChild
  rw [M.bind_ok (M.get_apply s), hh, M.bind_ok (M.errIf_false s), bunch_fine he hb]

/-! ### Stages -/

/-- The accounts of `l` and the referrals in `q` were imported. -/
structure Stage (st : KV Nat Info) (l : List Key) (q : List (Key × Key)) (s : State) : Prop where
  get : ∀ k, s.store.get k = if k ∈ l ++ q.map (·.2) then
    some (plainInfo (infoOf st k).referrer ((q.filter fun x => x.1 = k).map (·.2))) else none
  up : ∀ k p, k ∈ l ++ q.map (·.2) → (infoOf st k).referrer = some p → p ∈ l ++ q.map (·.2)
  purse : Penniless s
  index : s.index = []

theorem Stage.plain {st : KV Nat Info} {l : List Key} {q : List (Key × Key)} {s : State} (h : Stage st l q s) : Plain s.store := by
  intro k v hv
  rw [h.get] at hv
  split at hv
  · rename_i hk
    injection hv with hv
    refine ⟨_, _, hv.symm, fun p hp => ?_⟩
    rw [h.get, if_pos (h.up k p hk hp)]; rfl
  · cases hv

theorem stage_tops {st : KV Nat Info} {e : Env} (he : e.Fine) : ∀ (m l : List Key) (s : State), Stage st l [] s → (l ++ m).Nodup →
    (∀ k ∈ m, (infoOf st k).referrer = none) →
    ∃ t, M.forEach m (fun k => must (addTopLevel e k)) s = (.ok (), t) ∧ Stage st (l ++ m) [] t := by
  intro m
  induction m with
  | nil => intro l s hs _ _; exact ⟨s, rfl, by simpa using hs⟩
  | cons k m ih =>
    intro l s hs hn hm
    have hk : k ∉ l := by
      intro hk
      rw [List.nodup_append] at hn
      exact hn.2.2 k hk k (by simp) rfl
    have hg : s.store.get k = none := by rw [hs.get, if_neg (by simpa using hk)]
    obtain ⟨t, ht, h1, h2, h3⟩ := import_top he hs.purse hg
    have hr := hm k (by simp)
    have hst : Stage st (l ++ [k]) [] t := by
      refine ⟨?_, ?_, by intro a; rw [h1]; exact hs.purse a, by rw [h2]; exact hs.index⟩
      · intro j
        rw [h3, KV.get_set]
        by_cases hj : j = k
        · subst hj; simp [hr]
        · rw [if_neg hj, hs.get]; simp [hj]
      · intro j p hj hp
        simp only [List.map_nil, List.append_nil, List.mem_append, List.mem_singleton] at hj ⊢
        rcases hj with hj | hj
        · exact .inl (by simpa using hs.up j p (by simpa using hj) hp)
        · rw [hj, hr] at hp; cases hp
    obtain ⟨u, hu, h4⟩ := ih (l ++ [k]) t hst (by simpa using hn) (fun j hj => hm j (by simp [hj]))
    refine ⟨u, ?_, by simpa using h4⟩
    show ((must (addTopLevel e k)) >>= fun _ => M.forEach m _) s = _
    rw [M.bind_ok ht, hu]

theorem stage_child {st : KV Nat Info} {e : Env} (he : e.Fine) {l : List Key} {q : List (Key × Key)} {s : State} (hs : Stage st l q s)
    {p c : Key} (hp : p ∈ l ++ q.map (·.2)) (hc : c ∉ l ++ q.map (·.2)) (hq : ∀ x ∈ q, x.1 ≠ c) (hr : (infoOf st c).referrer = some p) :
    ∃ t, must (appendChild e p c true false) s = (.ok (), t) ∧ Stage st l (q ++ [(p, c)]) t := by
  have g1 := hs.get p
  rw [if_pos hp] at g1
  have g2 := hs.get c
  rw [if_neg hc] at g2
  obtain ⟨t, ht, h1, h2, h3⟩ := import_child he hs.purse hs.plain g1 g2
  have hne : p ≠ c := by intro h; rw [h] at hp; exact hc hp
  have hmem : ∀ j, j ∈ l ++ (q ++ [(p, c)]).map (·.2) ↔ j ∈ l ++ q.map (·.2) ∨ j = c := by
    intro j; simp only [List.map_append, List.map_cons, List.map_nil, List.mem_append, List.mem_singleton]; tauto
  refine ⟨t, ht, ?_, ?_, by intro a; rw [h1]; exact hs.purse a, by rw [h2]; exact hs.index⟩
  · intro j
    rw [h3, KV.get_set, KV.get_set]
    by_cases hjp : j = p
    · subst hjp
      rw [if_pos rfl, if_pos ((hmem j).2 (.inl hp)), List.filter_append, List.map_append]
      simp
    · rw [if_neg hjp]
      have hf : (q ++ [(p, c)]).filter (fun x => x.1 = j) = q.filter fun x => x.1 = j := by
        rw [List.filter_append]
        have : [(p, c)].filter (fun x => decide (x.1 = j)) = [] := by simp [Ne.symm hjp]
        rw [this, List.append_nil]
      rw [hf]
      by_cases hjc : j = c
      · subst hjc
        rw [if_pos rfl, if_pos ((hmem j).2 (.inr rfl)), hr]
        have : q.filter (fun x => decide (x.1 = j)) = [] := by
          rw [List.filter_eq_nil_iff]
          intro x hx; simpa using hq x hx
        rw [this]; rfl
      · rw [if_neg hjc, hs.get]
        by_cases hj : j ∈ l ++ q.map (·.2)
        · rw [if_pos hj, if_pos ((hmem j).2 (.inl hj))]
        · rw [if_neg hj, if_neg (fun h => ((hmem j).1 h).elim hj hjc)]
  · intro j a hj ha
    rw [hmem] at hj ⊢
    rcases hj with hj | hj
    · exact .inl (hs.up j a hj ha)
    · rw [hj, hr] at ha
      injection ha with ha
      exact .inl (ha ▸ hp)

/-- Pairs of referrer and referral -/
def pairs (st : KV Nat Info) (l : List Key) : List (Key × Key) := l.flatMap fun p => (infoOf st p).referrals.map fun c => (p, c)

theorem pairs_snd (st : KV Nat Info) (l : List Key) : (pairs st l).map (·.2) = l.flatMap fun p => (infoOf st p).referrals := by
  unfold pairs
  rw [List.map_flatMap]
  congr 1
  funext p
  rw [List.map_map]
  simp [Function.comp_def]

/-- All referrals of one account -/
theorem stage_kids {st : KV Nat Info} (hc : Consistent st) {e : Env} (he : e.Fine) {p : Key} {l : List Key} : ∀ (m : List Key) (q : List (Key × Key)) (s : State),
    Stage st l q s → p ∈ l ++ q.map (·.2) → (∀ c ∈ m, c ∈ (infoOf st p).referrals) → m.Nodup →
    (∀ c ∈ m, c ∉ l ++ q.map (·.2)) → (∀ c ∈ m, ∀ x ∈ q, x.1 ≠ c) →
    ∃ t, M.forEach m (fun c => must (appendChild e p c true false)) s = (.ok (), t) ∧ Stage st l (q ++ m.map fun c => (p, c)) t := by
  intro m
  induction m with
  | nil => intro q s hs _ _ _ _ _; exact ⟨s, rfl, by simpa using hs⟩
  | cons c m ih =>
    intro q s hs hp hm hn h1 h2
    have hnc := List.nodup_cons.1 hn
    obtain ⟨t, ht, hst⟩ := stage_child he hs hp (h1 c (by simp)) (h2 c (by simp)) (hc.nowhere c p (hm c (by simp))).1
    have hpc : ∀ c' ∈ c :: m, p ≠ c' := fun c' hc' h => h1 c' hc' (h ▸ hp)
    obtain ⟨u, hu, h4⟩ := ih (q ++ [(p, c)]) t hst (by
        rw [List.map_append, ← List.append_assoc]; exact List.mem_append_left _ hp)
      (fun c' h => hm c' (by simp [h])) hnc.2 (by
        intro c' h hx
        rw [List.map_append, ← List.append_assoc, List.mem_append] at hx
        rcases hx with hx | hx
        · exact h1 c' (by simp [h]) hx
        · simp at hx; exact hnc.1 (hx ▸ h)) (by
        intro c' h x hx
        rw [List.mem_append] at hx
        rcases hx with hx | hx
        · exact h2 c' (by simp [h]) x hx
        · simp at hx; rw [hx]; exact hpc c' (by simp [h]))
    refine ⟨u, ?_, by simpa using h4⟩
    show ((must (appendChild e p c true false)) >>= fun _ => M.forEach m _) s = _
    rw [M.bind_ok ht, hu]

/-- The loop over the other accounts, as a loop over all accounts: those without referrals make no difference. -/
theorem forEach_entries {st : KV Nat Info} {e : Env} (l : List Key) (s : State) :
    M.forEach (l.filterMap (entryOf st)) (fun r => M.forEach r.2 fun c => must (appendChild e r.1 c true false)) s =
      M.forEach l (fun p => M.forEach (infoOf st p).referrals fun c => must (appendChild e p c true false)) s := by
  induction l generalizing s with
  | nil => rfl
  | cons p l ih =>
    by_cases h : (infoOf st p).referrals = []
    · have h1 : (p :: l).filterMap (entryOf st) = l.filterMap (entryOf st) := by
        rw [List.filterMap_cons]; unfold entryOf; rw [h]; rfl
      rw [h1, ih]
      show _ = ((M.forEach (infoOf st p).referrals _) >>= fun _ => M.forEach l _) s
      rw [h]
      rfl
    · have h1 : (p :: l).filterMap (entryOf st) = (p, (infoOf st p).referrals) :: l.filterMap (entryOf st) := by
        rw [List.filterMap_cons]
        have : entryOf st p = some (p, (infoOf st p).referrals) := by unfold entryOf; rw [if_neg (by simpa using h)]
        rw [this]
      rw [h1]
      show ((M.forEach (infoOf st p).referrals fun c => must (appendChild e p c true false)) >>= fun _ => M.forEach _ _) s =
        ((M.forEach (infoOf st p).referrals _) >>= fun _ => M.forEach l _) s
      rw [M.bind_apply, M.bind_apply]
      rcases M.forEach (infoOf st p).referrals (fun c => must (appendChild e p c true false)) s with ⟨r, t⟩
      cases r with
      | ok a => exact ih t
      | err => rfl
      | panic => rfl

/-- The referrals of several accounts that are there already -/
theorem stage_level {st : KV Nat Info} (hc : Consistent st) {e : Env} (he : e.Fine) {l : List Key} : ∀ (m : List Key) (q : List (Key × Key)) (s : State),
    Stage st l q s → (∀ p ∈ m, p ∈ l ++ q.map (·.2)) → (m.flatMap fun p => (infoOf st p).referrals).Nodup →
    (∀ c ∈ m.flatMap (fun p => (infoOf st p).referrals), c ∉ l ++ q.map (·.2) ∧ c ∉ m ∧ ∀ x ∈ q, x.1 ≠ c) →
    ∃ t, M.forEach m (fun p => M.forEach (infoOf st p).referrals fun c => must (appendChild e p c true false)) s = (.ok (), t) ∧
      Stage st l (q ++ pairs st m) t := by
  intro m
  induction m with
  | nil => intro q s hs _ _ _; exact ⟨s, rfl, by simpa [pairs] using hs⟩
  | cons p m ih =>
    intro q s hs hp hn hx
    rw [List.flatMap_cons, List.nodup_append] at hn
    have hin : ∀ c ∈ (infoOf st p).referrals, c ∈ (p :: m).flatMap fun p => (infoOf st p).referrals := by
      intro c h; rw [List.flatMap_cons]; exact List.mem_append_left _ h
    have hin' : ∀ c ∈ m.flatMap (fun p => (infoOf st p).referrals), c ∈ (p :: m).flatMap fun p => (infoOf st p).referrals := by
      intro c h; rw [List.flatMap_cons]; exact List.mem_append_right _ h
    obtain ⟨t, ht, h1⟩ := stage_kids hc he (infoOf st p).referrals q s hs (hp p (by simp)) (fun _ h => h) hn.1
      (fun c h => (hx c (hin c h)).1) (fun c h => (hx c (hin c h)).2.2)
    have hsnd : ((infoOf st p).referrals.map fun c => (p, c)).map (·.2) = (infoOf st p).referrals := by
      rw [List.map_map]; simp [Function.comp_def]
    obtain ⟨u, hu, h2⟩ := ih _ t h1 (by
        intro a ha
        rw [List.map_append, ← List.append_assoc]
        exact List.mem_append_left _ (hp a (by simp [ha]))) hn.2.1 (by
        intro c h
        obtain ⟨g1, g2, g3⟩ := hx c (hin' c h)
        refine ⟨?_, fun hm => g2 (by simp [hm]), ?_⟩
        · rw [List.map_append, hsnd, ← List.append_assoc, List.mem_append]
          rintro (h' | h')
          · exact g1 h'
          · exact hn.2.2 c h' c h rfl
        · intro x hx'
          rw [List.mem_append] at hx'
          rcases hx' with hx' | hx'
          · exact g3 x hx'
          · obtain ⟨c', -, e'⟩ := List.mem_map.1 hx'
            rw [← e']
            intro e''
            exact g2 (by rw [← e'']; simp))
    refine ⟨u, ?_, ?_⟩
    · show ((M.forEach (infoOf st p).referrals _) >>= fun _ => M.forEach m _) s = _
      rw [M.bind_ok ht, hu]
    · rw [List.append_assoc] at h2
      exact h2

theorem upTo_pairs (st : KV Nat Info) : ∀ n, topLevelOf st ++ (pairs st (upTo st n)).map (·.2) = upTo st (n + 1) := by
  intro n
  induction n with
  | zero => simp [upTo, pairs, level]
  | succ n ih =>
    show _ = upTo st (n + 1) ++ level st (n + 1)
    have : pairs st (upTo st (n + 1)) = pairs st (upTo st n) ++ pairs st (level st n) := by
      show pairs st (upTo st n ++ level st n) = _
      unfold pairs; rw [List.flatMap_append]
    rw [this, List.map_append, pairs_snd st (level st n), ← List.append_assoc, ih]
    rfl

theorem forEach_append {α : Type} (f : α → Act Unit) (l m : List α) {s t : State} (h : M.forEach l f s = (.ok (), t)) :
    M.forEach (l ++ m) f s = M.forEach m f t := by
  induction l generalizing s with
  | nil => simp [M.forEach] at h; rw [h]; rfl
  | cons a l ih =>
    have h : (f a >>= fun _ => M.forEach l f) s = (.ok (), t) := h
    rw [M.bind_ok_iff] at h
    obtain ⟨_, s1, h1, h2⟩ := h
    show (f a >>= fun _ => M.forEach (l ++ m) f) s = _
    rw [M.bind_ok h1, ih h2]

/-- All accounts that are not banished -/
theorem stage_all {st : KV Nat Info} (hc : Consistent st) {e : Env} (he : e.Fine) : ∀ (n : Nat) (s : State), Stage st (topLevelOf st) [] s →
    ∃ t, M.forEach (upTo st n) (fun p => M.forEach (infoOf st p).referrals fun c => must (appendChild e p c true false)) s = (.ok (), t) ∧
      Stage st (topLevelOf st) (pairs st (upTo st n)) t := by
  intro n s hs
  induction n with
  | zero => exact ⟨s, rfl, hs⟩
  | succ n ih =>
    obtain ⟨t, ht, h1⟩ := ih
    obtain ⟨u, hu, h2⟩ := stage_level hc he (level st n) _ t h1 (by
        intro p hp
        rw [upTo_pairs]
        exact mem_upTo.2 ⟨n, by omega, hp⟩) (level_nodup hc (n + 1)) (by
        intro c hcc
        have hl : c ∈ level st (n + 1) := hcc
        refine ⟨?_, ?_, ?_⟩
        · rw [upTo_pairs]
          intro hm
          obtain ⟨i, hi, h⟩ := mem_upTo.1 hm
          have := level_unique hc _ _ _ h hl
          omega
        · intro hm
          have := level_unique hc _ _ _ hm hl
          omega
        · intro x hx e'
          unfold pairs at hx
          obtain ⟨p, hp, hx⟩ := List.mem_flatMap.1 hx
          obtain ⟨c', -, e''⟩ := List.mem_map.1 hx
          have : p = c := by rw [← e', ← e'']
          rw [this] at hp
          obtain ⟨i, hi, h⟩ := mem_upTo.1 hp
          have := level_unique hc _ _ _ h hl
          omega)
    refine ⟨u, ?_, ?_⟩
    · show M.forEach (upTo st n ++ level st n) _ s = _
      rw [forEach_append _ _ _ ht, hu]
    · have : pairs st (upTo st (n + 1)) = pairs st (upTo st n) ++ pairs st (level st n) := by
        show pairs st (upTo st n ++ level st n) = _
        unfold pairs; rw [List.flatMap_append]
      rw [this]; exact h2

theorem pairs_of (st : KV Nat Info) (k : Key) : ∀ (l : List Key), l.Nodup →
    ((pairs st l).filter fun x => x.1 = k).map (·.2) = if k ∈ l then (infoOf st k).referrals else [] := by
  intro l
  induction l with
  | nil => intro _; rfl
  | cons p l ih =>
    intro hn
    have hn := List.nodup_cons.1 hn
    have : pairs st (p :: l) = (infoOf st p).referrals.map (fun c => (p, c)) ++ pairs st l := rfl
    rw [this, List.filter_append, List.map_append, ih hn.2]
    by_cases h : p = k
    · subst h
      rw [if_neg hn.1, if_pos (by simp), List.append_nil]
      have : ((infoOf st p).referrals.map fun c => (p, c)).filter (fun x => decide (x.1 = p)) = (infoOf st p).referrals.map fun c => (p, c) := by
        rw [List.filter_eq_self]
        intro x hx
        obtain ⟨c, -, e⟩ := List.mem_map.1 hx
        rw [← e]; simp
      rw [this, List.map_map]; simp [Function.comp_def]
    · have : ((infoOf st p).referrals.map fun c => (p, c)).filter (fun x => decide (x.1 = k)) = [] := by
        rw [List.filter_eq_nil_iff]
        intro x hx
        obtain ⟨c, -, e⟩ := List.mem_map.1 hx
        rw [← e]; simpa using h
      rw [this]
      have : k ∈ p :: l ↔ k ∈ l := by simp [Ne.symm h]
      by_cases hk : k ∈ l
      · rw [if_pos hk, if_pos (this.2 hk)]; rfl
      · rw [if_neg hk, if_neg (fun x => hk (this.1 x))]; rfl

end Verif.Referral
