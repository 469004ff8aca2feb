import Verif.Referral.Rehome

/-!
Property C89, continued: the upgrade goes through, and the lists of referrals agree with the referrers afterwards, unless somebody moves to an account
that is moved later.
-/
namespace Verif.Referral

/-! ### Going through -/

/-- Referrers are known, and there is a numbering of the accounts in which they come first (nobody is above themselves). -/
structure Upward (st : KV Nat Info) (rank : Key → Nat) : Prop where
  known : ∀ k v p, st.get k = some v → v.referrer = some p → ∃ u, st.get p = some u
  lower : ∀ k v p, st.get k = some v → v.referrer = some p → rank p < rank k

theorem Linked.back {m m' : KV Nat Info} (h : Linked m m') {k : Key} {v' : Info} (hv : m'.get k = some v') :
    ∃ v, m.get k = some v ∧ private' v' = private' v ∧ v'.referrer = v.referrer := by
  have := h k
  rw [hv] at this
  cases hg : m.get k with
  | none => rw [hg] at this; cases this
  | some v =>
    rw [hg] at this
    injection this with this
    injection this with h1 h2
    exact ⟨v, rfl, h1, h2⟩

theorem Upward.linked {m m' : KV Nat Info} {rank : Key → Nat} (hu : Upward m rank) (h : Linked m m') : Upward m' rank := by
  refine ⟨fun k v' p hv hp => ?_, fun k v' p hv hp => ?_⟩
  · obtain ⟨v, g1, -, g3⟩ := h.back hv
    rw [g3] at hp
    obtain ⟨u, hu⟩ := hu.known k v p g1 hp
    obtain ⟨u', h', -, -⟩ := h.get hu
    exact ⟨u', h'⟩
  · obtain ⟨v, g1, -, g3⟩ := h.back hv
    rw [g3] at hp
    exact hu.lower k v p g1 hp

theorem FirstOpen.lower {o : KV Nat Info} {now month : Int} {rank : Key → Nat} (hu : Upward o rank) {k q : Key} (h : FirstOpen o now month k q) :
    rank q < rank k := by
  induction h with
  | here h1 h2 _ _ => exact hu.lower _ _ _ h1 h2
  | up h1 h2 _ _ _ ih => exact lt_trans ih (hu.lower _ _ _ h1 h2)

theorem settling_upward {o m : KV Nat Info} {now month : Int} {D : Key → Prop} {rank : Key → Nat} (hu : Upward o rank) (hm : Settling o now month D m) :
    Upward m rank := by
  have key : ∀ k v' p, m.get k = some v' → v'.referrer = some p → (∃ u, m.get p = some u) ∧ rank p < rank k := by
    intro k v' p hv hp
    cases ho : o.get k with
    | none => rw [hm.none k ho] at hv; cases hv
    | some v =>
      obtain ⟨w, g1, -, g3, g4⟩ := hm.some k v ho
      rw [hv] at g1
      cases g1
      by_cases hD : D k ∧ ∃ p, Orphan o v p
      · obtain ⟨hd, y, hy⟩ := hD
        obtain ⟨q, hq1, hq2⟩ := g3 y hd hy
        rw [hp] at hq2
        cases hq2
        obtain ⟨u, e1, -⟩ := hq1.open'
        obtain ⟨u', e2, -⟩ := hm.some p u e1
        exact ⟨⟨u', e2⟩, lt_trans (hq1.lower hu) (hu.lower k v y ho hy.2.1)⟩
      · rw [g4 hD] at hp
        obtain ⟨u, e1⟩ := hu.known k v p ho hp
        obtain ⟨u', e2, -⟩ := hm.some p u e1
        exact ⟨⟨u', e2⟩, hu.lower k v p ho hp⟩
  exact ⟨fun k v p h1 h2 => (key k v p h1 h2).1, fun k v p h1 h2 => (key k v p h1 h2).2⟩

/-- The accounts with smaller numbers -/
def lesser (m : KV Nat Info) (rank : Key → Nat) (p : Key) : Nat := (m.keys.filter fun k => decide (rank k < rank p)).length

theorem lesser_lt {m : KV Nat Info} {rank : Key → Nat} {p q : Key} (hq : q ∈ m.keys) (h : rank q < rank p) : lesser m rank q < lesser m rank p := by
  unfold lesser
  have hsub : ∀ k, decide (rank k < rank q) = true → decide (rank k < rank p) = true := by
    intro k hk
    simp only [decide_eq_true_eq] at hk ⊢
    omega
  obtain ⟨a, b, e⟩ := List.append_of_mem hq
  rw [e]
  simp only [List.filter_append, List.filter_cons, lt_irrefl, decide_false, h, decide_true, if_true, List.length_append, List.length_cons]
  have h1 : ∀ l : List Key, (l.filter fun k => decide (rank k < rank q)).length ≤ (l.filter fun k => decide (rank k < rank p)).length := by
    intro l
    rw [← List.countP_eq_length_filter, ← List.countP_eq_length_filter]
    exact List.countP_mono_left fun k _ => hsub k
  have ha := h1 a
  have hb := h1 b
  simp only [Bool.false_eq_true, if_false]
  omega

theorem lesser_le (m : KV Nat Info) (rank : Key → Nat) (p : Key) : lesser m rank p ≤ m.keys.length := List.length_filter_le _ _

theorem goUp_ends {m : KV Nat Info} {now month : Int} {rank : Key → Nat} (hu : Upward m rank) :
    ∀ (n : Nat) (p : Key), (∃ u, m.get p = some u) → lesser m rank p < n → ∃ x, goUp m now month n (some p) = some x := by
  intro n
  induction n with
  | zero => intro p _ h; omega
  | succ n ih =>
    rintro p ⟨u, hp⟩ hn
    unfold goUp
    rw [hp]
    by_cases hc : u.closed now month = true
    · obtain ⟨y, hy⟩ := closed_referrer hc
      have hy1 := hu.known p u y hp hy
      obtain ⟨x, hx⟩ := ih y hy1 (by
        have := lesser_lt (m := m) (rank := rank) (KV.mem_keys.2 hy1) (hu.lower p u y hp hy)
        omega)
      exact ⟨x, by simp only [hc, if_true, hy, hx]⟩
    · exact ⟨some p, by simp only [hc]; rfl⟩

theorem alongLine_ends {f : Nat → Info → Info} (hf : ∀ l v, 1 ≤ l → private' (f l v) = private' v ∧ (f l v).referrer = v.referrer) {rank : Key → Nat} :
    ∀ (n l : Nat) (a : Option Key) (m : KV Nat Info), 1 ≤ l → Upward m rank → (∀ b, a = some b → ∃ u, m.get b = some u) → ∃ m', alongLine f n l a m = some m' := by
  intro n
  induction n with
  | zero => intro l a m _ _ _; exact ⟨m, by unfold alongLine; rfl⟩
  | succ n ih =>
    intro l a m hl hu ha
    cases a with
    | none => exact ⟨m, by unfold alongLine; rfl⟩
    | some a =>
      obtain ⟨v, hv⟩ := ha a rfl
      have hlk := linked_set hv (hf l v hl).1 (hf l v hl).2
      have hu' := hu.linked hlk
      obtain ⟨m', h⟩ := ih (l + 1) v.referrer (m.set a (f l v)) (by omega) hu' (fun b hb => by
        refine hu'.known a (f l v) b (by rw [KV.get_set, if_pos rfl]) ?_
        rw [(hf l v hl).2, hb])
      exact ⟨m', by unfold alongLine; rw [hv]; exact h⟩

theorem amend_ends {f : Info → Info} {a : Key} {m : KV Nat Info} (h : ∃ u, m.get a = some u) : ∃ m', amend f a m = some m' := by
  obtain ⟨u, hu⟩ := h
  exact ⟨_, by unfold amend; rw [hu]; rfl⟩

theorem relink_ends {acc old q : Key} {r : Info} {m : KV Nat Info} {rank : Key → Nat} (hu : Upward m rank) (h1 : ∃ u, m.get old = some u) (h2 : ∃ u, m.get q = some u) :
    ∃ m', relink acc r old (some q) m = some m' := by
  unfold relink
  split
  · obtain ⟨m1, g1⟩ := amend_ends (f := fun v => { v with referrals := removeOrdered v.referrals acc }) h1
    have hl := amend_linked (f := fun v => { v with referrals := removeOrdered v.referrals acc }) (fun _ => ⟨rfl, rfl⟩) g1
    obtain ⟨u, h2⟩ := h2
    obtain ⟨u', h2', -⟩ := hl.get h2
    obtain ⟨m2, g2⟩ := amend_ends (f := fun v => { v with referrals := v.referrals ++ [acc] }) ⟨u', h2'⟩
    exact ⟨m2, by rw [g1]; exact g2⟩
  · obtain ⟨m1, g1⟩ := alongLine_ends (fun l v hl => part_private acc r hl v) 10 1 (some old) m (le_refl 1) hu (fun b hb => by cases hb; exact h1)
    have hl := alongLine_linked (fun l v hl => part_private acc r hl v) _ _ _ _ _ (le_refl 1) g1
    obtain ⟨u, h2⟩ := h2
    obtain ⟨u', h2', -⟩ := hl.get h2
    obtain ⟨m2, g2⟩ := alongLine_ends (fun l v hl => meet_private acc r hl v) 10 1 (some q) m1 (le_refl 1) (hu.linked hl) (fun b hb => by cases hb; exact ⟨u', h2'⟩)
    exact ⟨m2, by rw [g1]; exact g2⟩

theorem rehomeOne_ends {o m : KV Nat Info} {now month : Int} {D : Key → Prop} {acc : Key} {r : Info} {rank : Key → Nat} (hu : Upward o rank)
    (hb : ∀ k v, o.get k = some v → v.banished = true → v.referrer ≠ none) (hr : o.get acc = some r) (hm : Settling o now month D m) :
    ∃ m', rehomeOne now month acc r m = some m' := by
  have hum := settling_upward hu hm
  unfold rehomeOne
  split
  · exact ⟨m, rfl⟩
  · split
    · exact ⟨m, rfl⟩
    · next old href =>
      obtain ⟨w, hw⟩ := hu.known acc r old hr href
      obtain ⟨v, hv, g2, g3, g4⟩ := hm.some old w hw
      rw [hv]
      dsimp only
      split
      · exact ⟨m, rfl⟩
      · next hvb =>
        have hbw : v.banished = w.banished := (congrArg Info.banished g2 :)
        have hwb : w.banished = true := by rw [← hbw]; simpa using hvb
        have hwr : v.referrer = w.referrer := g4 (by
          rintro ⟨-, p, hp⟩
          rw [hp.1] at hwb
          cases hwb)
        obtain ⟨x, hx⟩ : ∃ x, w.referrer = some x := Option.ne_none_iff_exists'.1 (hb old w hw hwb)
        obtain ⟨u, hxu⟩ := hum.known old v x hv (by rw [hwr, hx])
        have hbl := lesser_le m rank x
        obtain ⟨new, h1⟩ := goUp_ends (now := now) (month := month) hum (m.keys.length + 1) x ⟨u, hxu⟩ (by omega)
        obtain ⟨q, u', rfl, e2, e3⟩ := goUp_first hb hm _ x new h1
        have hq : ∃ z, m.get q = some z := by
          rcases e3 with ⟨-, rfl⟩ | ⟨-, e4⟩
          · exact ⟨u, hxu⟩
          · obtain ⟨z, z1, -⟩ := e4.open'
            obtain ⟨z', z2, -⟩ := hm.some q z z1
            exact ⟨z', z2⟩
        obtain ⟨m1, h3⟩ := relink_ends (acc := acc) (r := r) hum ⟨v, hv⟩ hq
        exact ⟨_, by rw [hwr, hx, h1]; show Option.map _ (relink acc r old (some q) m) = _; rw [h3]; rfl⟩

theorem rehomeAll_ends {o : KV Nat Info} {now month : Int} {rank : Key → Nat} (hu : Upward o rank)
    (hb : ∀ k v, o.get k = some v → v.banished = true → v.referrer ≠ none) :
    ∀ (l : List (Key × Info)) (m : KV Nat Info) (D : Key → Prop), SortedKeys l → (∀ e ∈ l, o.get e.1 = some e.2 ∧ ¬ D e.1) → Settling o now month D m →
      ∃ m', rehomeAll now month l m = some m' := by
  intro l
  induction l with
  | nil => intro m D _ _ _; exact ⟨m, by unfold rehomeAll; rfl⟩
  | cons e l ih =>
    intro m D hs he hm
    unfold SortedKeys at hs
    rw [List.pairwise_cons] at hs
    obtain ⟨m1, h1⟩ := rehomeOne_ends hu hb (he e (by simp)).1 hm
    have s1 := rehomeOne_settling hb (he e (by simp)).1 (he e (by simp)).2 hm h1
    obtain ⟨m', h2⟩ := ih m1 _ hs.2 (fun x hx => ⟨(he x (by simp [hx])).1, fun hd => by
      rcases hd with hd | hd
      · exact (he x (by simp [hx])).2 hd
      · have := hs.1 x hx
        rw [hd] at this
        exact lt_irrefl _ this⟩) s1
    exact ⟨m', by unfold rehomeAll; rw [h1]; exact h2⟩

theorem settling_start (o : KV Nat Info) (now month : Int) : Settling o now month (fun _ => False) o :=
  ⟨fun _ h => h, fun _ v hv => ⟨v, hv, rfl, fun _ h => h.elim, fun _ => rfl⟩⟩

/-- C89: where referrers are known, nobody is above themselves and banished accounts have referrers, nothing goes wrong on the way. -/
theorem C89_goes_through (s : State) (rank : Key → Nat) (hu : Upward s.store rank)
    (hb : ∀ k v, s.store.get k = some v → v.banished = true → v.referrer ≠ none) :
    ∃ m, rehomeAll s.now s.month s.store.entries s.store = some m :=
  rehomeAll_ends hu hb s.store.entries s.store (fun _ => False) s.store.sorted (fun _ he => ⟨KV.mem_entries.1 he, id⟩) (settling_start _ _ _)

/-! ### The lists of referrals -/

/-- Lists name accounts once, and they name the present accounts that have the owner of the list as referrer. -/
structure InLists (st : KV Nat Info) : Prop where
  once : ∀ p u, st.get p = some u → u.referrals.Nodup
  exact : ∀ p u c v, st.get p = some u → st.get c = some v → v.banished = false → (c ∈ u.referrals ↔ v.referrer = some p)

/-- What happens to a list when `acc` goes from `old` to `q` -/
def shifted (acc old q : Key) (k : Key) (l : List Key) : List Key :=
  let l := if k = old then removeOrdered l acc else l
  if k = q then l ++ [acc] else l

theorem alongLine_lists {f : Nat → Info → Info} (h2 : ∀ l v, 2 ≤ l → (f l v).referrals = v.referrals) :
    ∀ (n l : Nat) (a : Option Key) (m m' : KV Nat Info), 2 ≤ l → alongLine f n l a m = some m' → ∀ k, (m'.get k).map Info.referrals = (m.get k).map Info.referrals := by
  intro n
  induction n with
  | zero => intro l a m m' _ h k; unfold alongLine at h; cases h; rfl
  | succ n ih =>
    intro l a m m' hl h k
    cases a with
    | none => unfold alongLine at h; cases h; rfl
    | some a =>
      unfold alongLine at h
      cases hv : m.get a with
      | none => rw [hv] at h; cases h
      | some v =>
        rw [hv] at h
        rw [ih _ _ _ _ (by omega) h k, KV.get_set]
        split
        · next hk => rw [hk, hv, Option.map_some, Option.map_some, h2 l v hl]
        · rfl

theorem alongLine_list {f : Nat → Info → Info} {g : List Key → List Key} (h1 : ∀ v, (f 1 v).referrals = g v.referrals)
    (h2 : ∀ l v, 2 ≤ l → (f l v).referrals = v.referrals) {n : Nat} {a : Key} {m m' : KV Nat Info} (h : alongLine f (n + 1) 1 (some a) m = some m') (k : Key) :
    (m'.get k).map Info.referrals = (m.get k).map fun v => if k = a then g v.referrals else v.referrals := by
  unfold alongLine at h
  cases hv : m.get a with
  | none => rw [hv] at h; cases h
  | some v =>
    rw [hv] at h
    rw [alongLine_lists h2 _ _ _ _ _ (le_refl 2) h k, KV.get_set]
    split
    · next hk => rw [hk, hv, Option.map_some, Option.map_some, h1 v]
    · rfl

theorem amend_list {f : Info → Info} {g : List Key → List Key} (h1 : ∀ v, (f v).referrals = g v.referrals) {a : Key} {m m' : KV Nat Info}
    (h : amend f a m = some m') (k : Key) :
    (m'.get k).map Info.referrals = (m.get k).map fun v => if k = a then g v.referrals else v.referrals := by
  unfold amend at h
  obtain ⟨v, hv, rfl⟩ := Option.map_eq_some_iff.1 h
  rw [KV.get_set]
  split
  · next hk => rw [hk, hv, Option.map_some, Option.map_some, h1 v]
  · rfl

theorem relink_list {acc old q : Key} {r : Info} {m m' : KV Nat Info} (h : relink acc r old (some q) m = some m') (k : Key) :
    (m'.get k).map Info.referrals = (m.get k).map fun v => shifted acc old q k v.referrals := by
  have glue : ∀ {m1 : KV Nat Info},
      (m1.get k).map Info.referrals = ((m.get k).map fun v => if k = old then removeOrdered v.referrals acc else v.referrals) →
      (m'.get k).map Info.referrals = ((m1.get k).map fun v => if k = q then v.referrals ++ [acc] else v.referrals) →
      (m'.get k).map Info.referrals = (m.get k).map fun v => shifted acc old q k v.referrals := by
    intro m1 e1 e2
    rw [e2]
    have : ((m1.get k).map fun v => if k = q then v.referrals ++ [acc] else v.referrals) =
        ((m1.get k).map Info.referrals).map fun l => if k = q then l ++ [acc] else l := by rw [Option.map_map]; rfl
    rw [this, e1, Option.map_map]
    rfl
  unfold relink at h
  split at h
  · obtain ⟨m1, h1, h2⟩ := Option.bind_eq_some_iff.1 h
    exact glue (amend_list (f := fun v => { v with referrals := removeOrdered v.referrals acc }) (g := fun l => removeOrdered l acc) (fun _ => rfl) h1 k)
      (amend_list (f := fun v => { v with referrals := v.referrals ++ [acc] }) (g := fun l => l ++ [acc]) (fun _ => rfl) h2 k)
  · obtain ⟨m1, h1, h2⟩ := Option.bind_eq_some_iff.1 h
    refine glue (alongLine_list (g := fun l => removeOrdered l acc) (fun v => ?_) (fun l v hl => ?_) h1 k)
      (alongLine_list (g := fun l => l ++ [acc]) (fun v => ?_) (fun l v hl => ?_) h2 k)
    · unfold part; rw [if_pos rfl]
    · unfold part; rw [if_neg (by omega)]; rfl
    · unfold meet; rw [if_pos rfl]
    · unfold meet; rw [if_neg (by omega)]; rfl

/-- Nobody moves to an account that is moved later. -/
def InOrder (st : KV Nat Info) (now month : Int) : Prop :=
  ∀ k r p q u, st.get k = some r → Orphan st r p → FirstOpen st now month p q → st.get q = some u → k < q → ∀ y, ¬ Orphan st u y

/-- The lists agree with the referrers, and the records of those still to be moved have the lists of the start. -/
structure Tidied (o : KV Nat Info) (D : Key → Prop) (m : KV Nat Info) : Prop where
  listed : InLists m
  fresh : ∀ k v p, o.get k = some v → Orphan o v p → ¬ D k → ∀ v', m.get k = some v' → v'.referrals = v.referrals

theorem rehomeOne_tidy {o m m' : KV Nat Info} {now month : Int} {D : Key → Prop} {acc : Key} {r : Info} {rank : Key → Nat} (hu : Upward o rank)
    (hb : ∀ k v, o.get k = some v → v.banished = true → v.referrer ≠ none) (hord : InOrder o now month)
    (hDl : ∀ k v, o.get k = some v → (D k ↔ k < acc)) (hr : o.get acc = some r) (hm : Settling o now month D m) (ht : Tidied o D m)
    (h : rehomeOne now month acc r m = some m') : Tidied o (fun k => D k ∨ k = acc) m' := by
  have still : m' = m → Tidied o (fun k => D k ∨ k = acc) m' := by
    rintro rfl
    exact ⟨ht.listed, fun k v p h1 h2 h3 => ht.fresh k v p h1 h2 fun hd => h3 (.inl hd)⟩
  have hD : ¬ D acc := fun hd => lt_irrefl _ ((hDl acc r hr).1 hd)
  have hm' := rehomeOne_settling hb hr hD hm h
  unfold rehomeOne at h
  split at h
  · cases h; exact still rfl
  · next hban =>
    have hban : r.banished = false := by simpa using hban
    split at h
    · cases h; exact still rfl
    · next old href =>
      split at h
      · cases h
      · next v hv =>
        cases hw : o.get old with
        | none => rw [hm.none old hw] at hv; cases hv
        | some w =>
          obtain ⟨w', g1, g2, g3, g4⟩ := hm.some old w hw
          rw [hv] at g1
          cases g1
          have hbw : v.banished = w.banished := (congrArg Info.banished g2 :)
          split at h
          · cases h; exact still rfl
          · next hvb =>
            have hwb : w.banished = true := by rw [← hbw]; simpa using hvb
            have horphan : Orphan o r old := ⟨hban, href, w, hw, hwb⟩
            obtain ⟨new, -, h2⟩ := Option.bind_eq_some_iff.1 h
            obtain ⟨m1, h3, rfl⟩ := Option.map_eq_some_iff.1 h2
            -- where the account goes
            obtain ⟨r', i1, -, i3, -⟩ := hm'.some acc r hr
            obtain ⟨q, hfirst, hq⟩ := i3 old (.inr rfl) horphan
            rw [KV.get_set, if_pos rfl] at i1
            cases i1
            have hq : new = some q := hq
            subst hq
            have hrq : rank q < rank old := hfirst.lower hu
            have hro : rank old < rank acc := hu.lower acc r old hr href
            have hqo : q ≠ old := by rintro rfl; exact lt_irrefl _ hrq
            have hqa : q ≠ acc := by rintro rfl; omega
            have hoa : old ≠ acc := by rintro rfl; omega
            obtain ⟨z, hz1, hz2⟩ := hfirst.open'
            have hlist := fun k => relink_list h3 k
            have hlk := relink_linked h3
            obtain ⟨r0, f1, f2, -, f4⟩ := hm.some acc r hr
            have f5 := f4 fun ⟨hd, _⟩ => hD hd
            have hr0 : r0.referrals = r.referrals := ht.fresh acc r old hr horphan hD r0 f1
            -- lists and referrers after the step
            have lists : ∀ p u', (m1.set acc { r with referrer := some q }).get p = some u' →
                ∃ u, m.get p = some u ∧ u'.referrals = shifted acc old q p u.referrals := by
              intro p u' hp
              rw [KV.get_set] at hp
              split at hp
              · next e =>
                cases hp
                rw [e]
                refine ⟨r0, f1, ?_⟩
                unfold shifted
                rw [if_neg (Ne.symm hqa), if_neg (Ne.symm hoa)]
                exact hr0.symm
              · have := hlist p
                rw [hp] at this
                cases hg : m.get p with
                | none => rw [hg] at this; cases this
                | some u =>
                  rw [hg] at this
                  injection this with this
                  exact ⟨u, rfl, this⟩
            have refs : ∀ c v', (m1.set acc { r with referrer := some q }).get c = some v' →
                ∃ v, m.get c = some v ∧ v'.banished = v.banished ∧ v'.referrer = if c = acc then some q else v.referrer := by
              intro c v' hc
              rw [KV.get_set] at hc
              split at hc
              · next e =>
                cases hc
                rw [e]
                exact ⟨r0, f1, (congrArg Info.banished f2 :).symm, by rw [if_pos rfl]⟩
              · next e =>
                obtain ⟨v, k1, k2, k3⟩ := hlk.back hc
                exact ⟨v, k1, (congrArg Info.banished k2 :), by rw [if_neg e, k3]⟩
            have hrb0 : r0.banished = false := by
              have : r0.banished = r.banished := (congrArg Info.banished f2 :)
              rw [this, hban]
            refine ⟨⟨fun p u' hp => ?_, fun p u' c v' hp hc hcb => ?_⟩, fun k y p hk ho hn y' hy' => ?_⟩
            · obtain ⟨u, hu1, hu2⟩ := lists p u' hp
              have hn := ht.listed.once p u hu1
              rw [hu2]
              unfold shifted removeOrdered
              by_cases hpq : p = q
              · rw [if_pos hpq, if_neg (by rw [hpq]; exact hqo)]
                rw [List.nodup_append]
                refine ⟨hn, by simp, ?_⟩
                intro a ha b hb' e
                rw [List.mem_singleton] at hb'
                rw [e, hb'] at ha
                have := (ht.listed.exact p u acc r0 hu1 f1 hrb0).1 ha
                rw [f5, href, hpq] at this
                injection this with this
                exact hqo this.symm
              · rw [if_neg hpq]
                split
                · exact hn.erase _
                · exact hn
            · obtain ⟨u, hu1, hu2⟩ := lists p u' hp
              obtain ⟨v0, hc1, hc2, hc3⟩ := refs c v' hc
              rw [hc2] at hcb
              have hn := ht.listed.once p u hu1
              have he := ht.listed.exact p u c v0 hu1 hc1 hcb
              rw [hu2, hc3]
              unfold shifted removeOrdered
              by_cases hca : c = acc
              · subst hca
                rw [f1] at hc1
                cases hc1
                rw [if_pos rfl]
                rw [f5, href] at he
                by_cases hpq : p = q
                · rw [if_pos hpq, hpq]
                  exact iff_of_true (List.mem_append_right _ (List.mem_singleton.2 rfl)) rfl
                · rw [if_neg hpq]
                  refine ⟨fun hmem => ?_, fun e => by injection e with e; exact absurd e.symm hpq⟩
                  exfalso
                  by_cases hpo : p = old
                  · rw [if_pos hpo] at hmem
                    exact (hn.mem_erase_iff.1 hmem).1 rfl
                  · rw [if_neg hpo] at hmem
                    have := he.1 hmem
                    injection this with this
                    exact hpo this.symm
              · rw [if_neg hca, ← he]
                by_cases hpq : p = q
                · rw [if_pos hpq, if_neg (by rw [hpq]; exact hqo), List.mem_append, List.mem_singleton]
                  simp [hca]
                · rw [if_neg hpq]
                  split
                  · rw [hn.mem_erase_iff]
                    simp [hca]
                  · rfl
            · have hka : k ≠ acc := fun e => hn (.inr e)
              have hkD : ¬ D k := fun e => hn (.inl e)
              obtain ⟨u, hu1, hu2⟩ := lists k y' hy'
              rw [hu2, ← ht.fresh k y p hk ho hkD u hu1]
              unfold shifted
              rw [if_neg, if_neg]
              · rintro rfl
                rw [hw] at hk
                cases hk
                rw [ho.1] at hwb
                cases hwb
              · rintro rfl
                have hlt : acc < k := by
                  rcases lt_trichotomy acc k with h | h | h
                  · exact h
                  · exact absurd h.symm hka
                  · exact absurd ((hDl k y hk).2 h) hkD
                exact hord acc r old k y hr horphan hfirst hk hlt p ho

theorem rehomeAll_tidy {o : KV Nat Info} {now month : Int} {rank : Key → Nat} (hu : Upward o rank)
    (hb : ∀ k v, o.get k = some v → v.banished = true → v.referrer ≠ none) (hord : InOrder o now month) :
    ∀ (l d : List (Key × Info)) (m m' : KV Nat Info), o.entries = d ++ l → Settling o now month (fun k => k ∈ d.map Prod.fst) m →
      Tidied o (fun k => k ∈ d.map Prod.fst) m → rehomeAll now month l m = some m' → InLists m' := by
  intro l
  induction l with
  | nil => intro d m m' _ _ ht h; unfold rehomeAll at h; cases h; exact ht.listed
  | cons e l ih =>
    intro d m m' hd hm ht h
    unfold rehomeAll at h
    obtain ⟨m1, h1, h2⟩ := Option.bind_eq_some_iff.1 h
    have hs : SortedKeys (d ++ e :: l) := by rw [← hd]; exact o.sorted
    unfold SortedKeys at hs
    rw [List.pairwise_append, List.pairwise_cons] at hs
    obtain ⟨-, ⟨s2, -⟩, s3⟩ := hs
    have hmem : ∀ x ∈ d ++ e :: l, o.get x.1 = some x.2 := fun x hx => KV.mem_entries.1 (by rw [hd]; exact hx)
    have hDl : ∀ k v, o.get k = some v → (k ∈ d.map Prod.fst ↔ k < e.1) := by
      intro k v hk
      have hin : (k, v) ∈ d ++ e :: l := by rw [← hd]; exact KV.mem_entries.2 hk
      constructor
      · intro h
        obtain ⟨x, hx, rfl⟩ := List.mem_map.1 h
        exact s3 x hx e (by simp)
      · intro hlt
        rcases List.mem_append.1 hin with h | h
        · exact List.mem_map.2 ⟨_, h, rfl⟩
        · rcases List.mem_cons.1 h with h | h
          · rw [← h] at hlt; exact absurd hlt (lt_irrefl _)
          · exact absurd (lt_trans hlt (s2 _ h)) (lt_irrefl _)
    have hr : o.get e.1 = some e.2 := hmem e (by simp)
    have hnD : e.1 ∉ d.map Prod.fst := fun h => lt_irrefl _ ((hDl _ _ hr).1 h)
    have t1 := rehomeOne_tidy hu hb hord hDl hr hm ht h1
    have s1 := rehomeOne_settling hb hr hnD hm h1
    have e' : (fun k => k ∈ d.map Prod.fst ∨ k = e.1) = fun k => k ∈ (d ++ [e]).map Prod.fst := by
      funext k
      simp only [List.map_append, List.mem_append, List.map_cons, List.map_nil, List.mem_singleton]
    rw [e'] at t1 s1
    exact ih (d ++ [e]) m1 m' (by rw [hd]; simp) s1 t1 h2

/-- C89: if nobody moves to an account that is moved later, lists of referrals and referrers that agreed before agree afterwards. -/
theorem C89_lists_partial (s : State) (rank : Key → Nat) (hu : Upward s.store rank)
    (hb : ∀ k v, s.store.get k = some v → v.banished = true → v.referrer ≠ none) (hl : InLists s.store) (hord : InOrder s.store s.now s.month) :
    InLists (rehome s).store := by
  obtain ⟨m, h⟩ := C89_goes_through s rank hu hb
  unfold rehome
  rw [h]
  exact rehomeAll_tidy hu hb hord s.store.entries [] s.store m rfl (by simpa using settling_start s.store s.now s.month)
    ⟨hl, fun k v p hk _ _ v' hv' => by rw [hk] at hv'; cases hv'; rfl⟩ h

end Verif.Referral
