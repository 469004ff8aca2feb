import Verif.Referral.Readmit

/-! Property C90, continued: when the upgrade goes through, what becomes of the lists of referrals, and what goes wrong. -/
namespace Verif.Referral

/-! ### Going through -/

theorem readmitting_upward {o m : KV Nat Info} {delegation : Key → Option Int} {dust now month : Int} {D : Key → Prop} {rank : Key → Nat} (hu : Upward o rank)
    (hm : Readmitting o delegation dust now month D m) : Upward m rank := by
  have here : ∀ p u, o.get p = some u → ∃ u', m.get p = some u' := by
    intro p u hp
    by_cases hd : D p
    · obtain ⟨u', h, -⟩ := hm.done p u hp hd; exact ⟨u', h⟩
    · obtain ⟨u', h, -⟩ := hm.todo p u hp hd; exact ⟨u', h⟩
  have key : ∀ k v' p, m.get k = some v' → v'.referrer = some p → (∃ u, m.get p = some u) ∧ rank p < rank k := by
    intro k v' p hv hp
    cases ho : o.get k with
    | none => rw [hm.none k ho] at hv; cases hv
    | some v =>
      have hvp : v.referrer = some p := by
        by_cases hd : D k
        · obtain ⟨w, h1, hb⟩ := hm.done k v ho hd
          rw [hv] at h1
          cases h1
          by_cases hret : Returns delegation dust k v
          · exact (((hb.back hret).2 p).1 hp).1
          · by_cases hban : v.banished = true
            · rw [← (hb.out hban hret).2]; exact hp
            · rw [← (hb.never (by simpa using hban)).2]; exact hp
        · obtain ⟨w, h1, -, h3⟩ := hm.todo k v ho hd
          rw [hv] at h1
          cases h1
          rw [← h3]; exact hp
      obtain ⟨u, hu1⟩ := hu.known k v p ho hvp
      exact ⟨here p u hu1, hu.lower k v p ho hvp⟩
  exact ⟨fun k v p h1 h2 => (key k v p h1 h2).1, fun k v p h1 h2 => (key k v p h1 h2).2⟩

theorem homeFor_cases {m : KV Nat Info} {now month : Int} {x y : Option Key} (h : homeFor m now month x = some y) : y = none ∨ y = x := by
  cases x with
  | none => cases h; exact .inl rfl
  | some p =>
    unfold homeFor at h
    obtain ⟨u, -, h⟩ := Option.map_eq_some_iff.1 h
    split at h
    · exact .inl h.symm
    · exact .inr h.symm

/-- The record with a nearer or no referrer -/
theorem Upward.set {m : KV Nat Info} {rank : Key → Nat} (hu : Upward m rank) {k : Key} {r w : Info} (hr : m.get k = some r)
    (hw : w.referrer = none ∨ w.referrer = r.referrer) : Upward (m.set k w) rank := by
  have up : ∀ x v p, (m.set k w).get x = some v → v.referrer = some p → ∃ v0, m.get x = some v0 ∧ v0.referrer = some p := by
    intro x v p hx hp
    rw [KV.get_set] at hx
    split at hx
    · next e =>
      cases hx
      rw [e]
      rcases hw with h | h
      · rw [h] at hp; cases hp
      · exact ⟨r, hr, by rw [← h]; exact hp⟩
    · exact ⟨v, hx, hp⟩
  refine ⟨fun x v p hx hp => ?_, fun x v p hx hp => ?_⟩
  · obtain ⟨v0, h1, h2⟩ := up x v p hx hp
    obtain ⟨u, h3⟩ := hu.known x v0 p h1 h2
    rw [KV.get_set]
    split
    · exact ⟨_, rfl⟩
    · exact ⟨u, h3⟩
  · obtain ⟨v0, h1, h2⟩ := up x v p hx hp
    exact hu.lower x v0 p h1 h2

theorem hollow_own {r : Info} (h : r.tot .delegated 0 ≠ 0) : hollow r = false := by
  rw [← Bool.not_eq_true]
  intro hh
  unfold hollow at hh
  have := List.all_eq_true.1 hh 0 (by simp)
  rw [Bool.and_eq_true, decide_eq_true_eq, decide_eq_true_eq] at this
  exact h this.2

theorem readmitOne_ends {o m : KV Nat Info} {delegation : Key → Option Int} {dust now month : Int} {D : Key → Prop} {acc : Key} {r : Info} {rank : Key → Nat}
    (hu : Upward o rank) (hf : ∀ k, ∃ d, delegation k = some d) (hown : ∀ k v, o.get k = some v → Returns delegation dust k v → v.tot .delegated 0 ≠ 0)
    (hD : ¬ D acc) (hr : o.get acc = some r) (hm : Readmitting o delegation dust now month D m) :
    ∃ m', readmitOne delegation dust now month acc m = some m' := by
  have hum := readmitting_upward hu hm
  obtain ⟨r1, e1, e2, e3⟩ := hm.todo acc r hr hD
  unfold readmitOne
  rw [e1, Option.bind_some]
  split
  · exact ⟨_, rfl⟩
  · next hb =>
    obtain ⟨d, hd⟩ := hf acc
    rw [hd, Option.bind_some]
    split
    · next hlt =>
      have hb1 : r1.banished = r.banished := (congrArg Info.banished e2 :)
      have hret : Returns delegation dust acc r := ⟨by rw [← hb1]; simpa using hb, d, hd, hlt⟩
      have ht : r1.tot .delegated 0 = r.tot .delegated 0 := by
        have := congrFun (congrFun (congrArg Info.tot e2 :) What.delegated) 0
        simpa [private'] using this
      obtain ⟨parent, hp⟩ : ∃ x, homeFor m now month r1.referrer = some x := by
        cases hrr : r1.referrer with
        | none => exact ⟨_, rfl⟩
        | some p =>
          obtain ⟨u, hu'⟩ := hum.known acc r1 p e1 hrr
          exact ⟨_, by show (m.get p).map _ = _; rw [hu']; rfl⟩
      rw [hp, Option.bind_some]
      unfold welcome
      rw [if_neg (by rw [hollow_own (r := { r1.readmitted with referrer := parent }) (by show r1.tot .delegated 0 ≠ 0; rw [ht]; exact hown acc r hr hret)]; simp)]
      have hup := hum.set (w := { r1.readmitted with referrer := parent }) e1 (homeFor_cases hp)
      refine alongLine_ends (fun l v hl => meet_private acc _ hl v) 10 1 parent _ (le_refl 1) hup fun b hb => ?_
      exact hup.known acc { r1.readmitted with referrer := parent } b (by rw [KV.get_set, if_pos rfl]) hb
    · split
      · exact ⟨_, rfl⟩
      · exact ⟨_, rfl⟩

theorem readmitAll_ends {o : KV Nat Info} {delegation : Key → Option Int} {dust now month : Int} {rank : Key → Nat}
    (hu : Upward o rank) (hf : ∀ k, ∃ d, delegation k = some d) (hown : ∀ k v, o.get k = some v → Returns delegation dust k v → v.tot .delegated 0 ≠ 0) :
    ∀ (l d : List Key) (m : KV Nat Info), o.keys = d ++ l → Readmitting o delegation dust now month (· ∈ d) m →
      ∃ m', readmitAll delegation dust now month l m = some m' := by
  intro l
  induction l with
  | nil => intro d m _ _; exact ⟨m, rfl⟩
  | cons k l ih =>
    intro d m hd hm
    obtain ⟨hDl, r, hr⟩ := keys_split hd
    obtain ⟨m1, h1⟩ := readmitOne_ends hu hf hown (fun h => lt_irrefl _ ((hDl k r hr).1 h)) hr hm
    have s1 := readmitOne_step hDl hr hm h1
    have e' : (fun x => x ∈ d ∨ x = k) = (· ∈ d ++ [k]) := by funext x; simp
    rw [e'] at s1
    obtain ⟨m', h2⟩ := ih (d ++ [k]) m1 (by rw [hd]; simp) s1
    exact ⟨m', by unfold readmitAll; rw [h1]; exact h2⟩

/-- C90: nothing goes wrong on the way where referrers are known, nobody is above themselves, balances are of ordinary size, and the records of those
to be readmitted say that they have delegated something. -/
theorem C90_goes_through (dust : Int) (s : State) (rank : Key → Nat) (hu : Upward s.store rank) (hf : ∀ k, ∃ d, s.delegation k = some d)
    (hown : ∀ k v, s.store.get k = some v → Returns s.delegation dust k v → v.tot .delegated 0 ≠ 0) :
    ∃ m, readmitAll s.delegation dust s.now s.month s.store.keys s.store = some m :=
  readmitAll_ends hu hf hown s.store.keys [] s.store rfl (readmitting_start _ _ _ _ _)

/-! ### The lists of referrals -/

/-- The lists agree with the referrers, and banished accounts are in none. -/
structure Orderly (st : KV Nat Info) : Prop where
  listed : InLists st
  out : ∀ p u c v, st.get p = some u → st.get c = some v → v.banished = true → c ∉ u.referrals

theorem welcome_list {acc : Key} {r : Info} {parent : Option Key} {m m' : KV Nat Info} (h : welcome acc r parent m = some m') (k : Key) :
    (m'.get k).map Info.referrals = (m.get k).map fun v => if some k = parent then v.referrals ++ [acc] else v.referrals := by
  unfold welcome at h
  cases parent with
  | none =>
    split at h
    · cases h
    · have h : some m = some m' := h
      cases h
      simp only [reduceCtorEq, if_false]
  | some q =>
    simp only [Option.some.injEq]
    split at h
    · exact amend_list (f := fun v => { v with referrals := v.referrals ++ [acc] }) (g := fun l => l ++ [acc]) (fun _ => rfl) h k
    · refine alongLine_list (g := fun l => l ++ [acc]) (fun v => ?_) (fun l v hl => ?_) h k
      · unfold meet; rw [if_pos rfl]
      · unfold meet; rw [if_neg (by omega)]; rfl

theorem orderly_same {m m' : KV Nat Info} (ht : Orderly m)
    (h : ∀ k, (m'.get k).map (fun v => (v.referrals, v.referrer, v.banished)) = (m.get k).map (fun v => (v.referrals, v.referrer, v.banished))) : Orderly m' := by
  have back : ∀ k v', m'.get k = some v' → ∃ v, m.get k = some v ∧ v'.referrals = v.referrals ∧ v'.referrer = v.referrer ∧ v'.banished = v.banished := by
    intro k v' hv
    have := h k
    rw [hv] at this
    cases hg : m.get k with
    | none => rw [hg] at this; cases this
    | some v =>
      rw [hg] at this
      injection this with this
      injection this with h1 h2
      injection h2 with h2 h3
      exact ⟨v, rfl, h1, h2, h3⟩
  refine ⟨⟨fun p u hp => ?_, fun p u c v hp hc hb => ?_⟩, fun p u c v hp hc hb => ?_⟩
  · obtain ⟨u0, h1, h2, -⟩ := back p u hp
    rw [h2]; exact ht.listed.once p u0 h1
  · obtain ⟨u0, h1, h2, -⟩ := back p u hp
    obtain ⟨v0, h3, -, h4, h5⟩ := back c v hc
    rw [h2, h4]; exact ht.listed.exact p u0 c v0 h1 h3 (by rw [← h5]; exact hb)
  · obtain ⟨u0, h1, h2, -⟩ := back p u hp
    obtain ⟨v0, h3, -, -, h5⟩ := back c v hc
    rw [h2]; exact ht.out p u0 c v0 h1 h3 (by rw [← h5]; exact hb)

theorem readmitOne_orderly {m m' : KV Nat Info} {delegation : Key → Option Int} {dust now month : Int} {acc : Key} {rank : Key → Nat} (hu : Upward m rank) (ht : Orderly m)
    (h : readmitOne delegation dust now month acc m = some m') : Orderly m' := by
  unfold readmitOne at h
  obtain ⟨r, hr, h⟩ := Option.bind_eq_some_iff.1 h
  split at h
  · cases h; exact ht
  · next hb =>
    have hb : r.banished = true := by simpa using hb
    obtain ⟨d, -, h⟩ := Option.bind_eq_some_iff.1 h
    split at h
    · obtain ⟨parent, hp, h⟩ := Option.bind_eq_some_iff.1 h
      have hpa : some acc ≠ parent := by
        rintro rfl
        rcases homeFor_cases hp with e | e
        · cases e
        · exact lt_irrefl _ (hu.lower acc r acc hr e.symm)
      have hlk := welcome_linked h
      have lists : ∀ p u', m'.get p = some u' → ∃ u, m.get p = some u ∧ u'.referrals = if some p = parent then u.referrals ++ [acc] else u.referrals := by
        intro p u' hp'
        have := welcome_list h p
        rw [hp', KV.get_set] at this
        by_cases e : p = acc
        · rw [if_pos e] at this
          injection this with this
          exact ⟨r, by rw [e]; exact hr, this⟩
        · rw [if_neg e] at this
          cases hg : m.get p with
          | none => rw [hg] at this; cases this
          | some u =>
            rw [hg] at this
            injection this with this
            exact ⟨u, rfl, this⟩
      have refs : ∀ c v', m'.get c = some v' → (c = acc ∧ v'.banished = false ∧ v'.referrer = parent) ∨
          (c ≠ acc ∧ ∃ v, m.get c = some v ∧ v'.banished = v.banished ∧ v'.referrer = v.referrer) := by
        intro c v' hc
        obtain ⟨v, h1, h2, h3⟩ := hlk.back hc
        rw [KV.get_set] at h1
        split at h1
        · next e =>
          cases h1
          exact .inl ⟨e, (congrArg Info.banished h2 :), h3⟩
        · next e => exact .inr ⟨e, v, h1, (congrArg Info.banished h2 :), h3⟩
      refine ⟨⟨fun p u' hp' => ?_, fun p u' c v' hp' hc hcb => ?_⟩, fun p u' c v' hp' hc hcb => ?_⟩
      · obtain ⟨u, h1, h2⟩ := lists p u' hp'
        rw [h2]
        have hn := ht.listed.once p u h1
        split
        · rw [List.nodup_append]
          refine ⟨hn, by simp, ?_⟩
          intro a ha b hb' e
          rw [List.mem_singleton] at hb'
          rw [e, hb'] at ha
          exact ht.out p u acc r h1 hr hb ha
        · exact hn
      · obtain ⟨u, h1, h2⟩ := lists p u' hp'
        rw [h2]
        rcases refs c v' hc with ⟨rfl, -, h5⟩ | ⟨hne, v, h3, h4, h5⟩
        · rw [h5]
          split
          · next e => exact iff_of_true (List.mem_append_right _ (List.mem_singleton.2 rfl)) e.symm
          · next e => exact iff_of_false (ht.out p u c r h1 hr hb) fun h => e h.symm
        · rw [h5, ← ht.listed.exact p u c v h1 h3 (by rw [← h4]; exact hcb)]
          split
          · rw [List.mem_append, List.mem_singleton]
            exact or_iff_left hne
          · rfl
      · obtain ⟨u, h1, h2⟩ := lists p u' hp'
        rw [h2]
        rcases refs c v' hc with ⟨rfl, h4, -⟩ | ⟨hne, v, h3, h4, -⟩
        · rw [h4] at hcb; cases hcb
        · have := ht.out p u c v h1 h3 (by rw [← h4]; exact hcb)
          split
          · rw [List.mem_append, List.mem_singleton]
            rintro (h | h)
            · exact this h
            · exact hne h
          · exact this
    · split at h
      · cases h
        refine orderly_same ht fun k => ?_
        rw [KV.get_set]
        split
        · next e => rw [e, hr]; rfl
        · rfl
      · cases h; exact ht

theorem readmitAll_orderly {o : KV Nat Info} {delegation : Key → Option Int} {dust now month : Int} {rank : Key → Nat} (hu : Upward o rank) :
    ∀ (l d : List Key) (m m' : KV Nat Info), o.keys = d ++ l → Readmitting o delegation dust now month (· ∈ d) m → Orderly m →
      readmitAll delegation dust now month l m = some m' → Orderly m' := by
  intro l
  induction l with
  | nil => intro d m m' _ _ ht h; unfold readmitAll at h; cases h; exact ht
  | cons k l ih =>
    intro d m m' hd hm ht h
    unfold readmitAll at h
    obtain ⟨m1, h1, h2⟩ := Option.bind_eq_some_iff.1 h
    obtain ⟨hDl, r, hr⟩ := keys_split hd
    have s1 := readmitOne_step hDl hr hm h1
    have e' : (fun x => x ∈ d ∨ x = k) = (· ∈ d ++ [k]) := by funext x; simp
    rw [e'] at s1
    exact ih (d ++ [k]) m1 m' (by rw [hd]; simp) s1 (readmitOne_orderly (readmitting_upward hu hm) ht h1) h2

/-- C90: lists of referrals and referrers that agreed before agree afterwards, and nobody banished is in a list. -/
theorem C90_lists (dust : Int) (s : State) (rank : Key → Nat) (hu : Upward s.store rank) (ho : Orderly s.store) : Orderly (readmit dust s).store := by
  unfold readmit
  split
  · next m h => exact readmitAll_orderly hu s.store.keys [] s.store m rfl (readmitting_start _ _ _ _ _) ho h
  · exact ho

/-! ### Cases -/

def orderlyB (st : KV Nat Info) : Bool :=
  inListsB st && st.entries.all fun e => st.entries.all fun f => !f.2.banished || decide (f.1 ∉ e.2.referrals)

theorem orderly_of_check {st : KV Nat Info} (h : orderlyB st = true) : Orderly st := by
  unfold orderlyB at h
  rw [Bool.and_eq_true] at h
  refine ⟨inLists_of_check h.1, fun p u c v hp hc hb => ?_⟩
  have := List.all_eq_true.1 (List.all_eq_true.1 h.2 _ (KV.mem_entries.2 hp)) _ (KV.mem_entries.2 hc)
  simpa [hb] using this

def delegatedAt (l : List Int) : What → Nat → Int
  | .delegated, j => l.getD j 0
  | _, _ => 0

/-- 2 above 4 (banished) above 6 (banished), and above 8 (banished) -/
def exiledRecords : List (Key × Info) :=
  [(2, { status := 1, active := true }),
   (4, { status := 3, banished := true, banishmentAt := some 7, compressionAt := some 9, referrer := some 2, tot := delegatedAt [50] }),
   (6, { status := 1, banished := true, compressionAt := some 9, referrer := some 4, tot := delegatedAt [60] }),
   (8, { status := 1, banished := true, compressionAt := some 9, referrer := some 2 })]

/-- Accounts 4 and 6 have delegated coins. -/
def exiledPurse (a : Nat) : Purse := if a = 2 then { delegated := 50 } else if a = 3 then { delegated := 60 } else {}

def exiled : State := { empty0 with store := storeOf exiledRecords, purse := exiledPurse }

def returnsB (delegation : Key → Option Int) (dust : Int) (k : Key) (v : Info) : Bool :=
  v.banished && match delegation k with
    | none => false
    | some d => decide (dust < d)

theorem returns_iff {delegation : Key → Option Int} {dust : Int} {k : Key} {v : Info} : Returns delegation dust k v ↔ returnsB delegation dust k v = true := by
  unfold Returns returnsB
  cases h : delegation k with
  | none => simp
  | some d => simp

def ownB (st : KV Nat Info) (delegation : Key → Option Int) (dust : Int) : Bool :=
  st.entries.all fun e => !returnsB delegation dust e.1 e.2 || decide (e.2.tot .delegated 0 ≠ 0)

theorem own_of_check {st : KV Nat Info} {delegation : Key → Option Int} {dust : Int} (h : ownB st delegation dust = true) {k : Key} {v : Info} (hv : st.get k = some v)
    (hr : Returns delegation dust k v) : v.tot .delegated 0 ≠ 0 := by
  have := List.all_eq_true.1 h _ (KV.mem_entries.2 hv)
  simpa [returns_iff.1 hr] using this

theorem exiled_fits (k : Key) : ∃ d, exiled.delegation k = some d := by
  show ∃ d, toInt64? (exiledPurse (addrOf k)).delegated = some d
  unfold exiledPurse
  split
  · exact ⟨50, rfl⟩
  · split
    · exact ⟨60, rfl⟩
    · exact ⟨0, rfl⟩

/-- The premises of C90 hold; account 4 comes back to account 2, account 6 comes back without referrer, and account 8 remains banished. -/
example : (∃ rank, Upward exiled.store rank) ∧ Orderly exiled.store ∧ (∀ k, ∃ d, exiled.delegation k = some d) ∧
    (∀ k v, exiled.store.get k = some v → Returns exiled.delegation 10 k v → v.tot .delegated 0 ≠ 0) ∧
    (readmit 10 exiled).store.entries.map (fun e => (e.1, e.2.referrer, e.2.referrals, e.2.banished, e.2.status)) =
      [(2, none, [4], false, 1), (4, some 2, [], false, 1), (6, none, [], false, 1), (8, some 2, [], true, 1)] ∧
    (readmit 10 exiled).store.entries.map (fun e => (e.2.banishmentAt, e.2.compressionAt, (List.range 3).map (e.2.tot .delegated))) =
      [(none, none, [0, 50, 0]), (none, none, [50, 0, 0]), (none, none, [60, 0, 0]), (none, none, [0, 0, 0])] :=
  ⟨⟨id, (upward_of_check (by decide +kernel)).1⟩, orderly_of_check (by decide +kernel), exiled_fits,
    fun _ _ hv hr => own_of_check (by decide +kernel) hv hr, by decide +kernel, by decide +kernel⟩

/-- C90 does not bring accounts to the first open account above them, although the loop in upgrade.go:480-485 looks for it: here account 6, below account 4, is left without referrer,
while account 2, above account 4, is open, before and after. -/
theorem C90_top_violation : ∃ (dust : Int) (s : State) (rank : Key → Nat), Upward s.store rank ∧ Orderly s.store ∧ (∀ k, ∃ d, s.delegation k = some d) ∧
    (∀ k v, s.store.get k = some v → Returns s.delegation dust k v → v.tot .delegated 0 ≠ 0) ∧
    FirstOpen s.store s.now s.month 6 2 ∧ Returns s.delegation dust 6 (infoOf s.store 6) ∧
    (infoOf (readmit dust s).store 6).banished = false ∧ (infoOf (readmit dust s).store 6).referrer = none ∧
    (infoOf (readmit dust s).store 2).closed s.now s.month = false := by
  refine ⟨10, exiled, id, (upward_of_check (by decide +kernel)).1, orderly_of_check (by decide +kernel), exiled_fits,
    fun _ _ hv hr => own_of_check (by decide +kernel) hv hr, ?_, returns_iff.2 (by decide +kernel), by decide +kernel, by decide +kernel, by decide +kernel⟩
  have look : ∀ k, (exiled.store.get k).isSome = true → exiled.store.get k = some (infoOf exiled.store k) := by
    intro k h
    obtain ⟨v, hv⟩ := Option.isSome_iff_exists.1 h
    rw [infoOf_get hv, hv]
  exact .up (look 6 (by decide +kernel)) (by decide +kernel) (look 4 (by decide +kernel)) (by decide +kernel)
    (.here (look 4 (by decide +kernel)) (by decide +kernel) (look 2 (by decide +kernel)) (by decide +kernel))

/-- As before, but the records of account 6 show no money. -/
def misjudged : State := { exiled with store := exiled.store.set 6 { infoOf exiled.store 6 with tot := delegatedAt [] } }

/-- C90 may do nothing at all: if an account to be readmitted below a closed one has no money on record, `get("")` panics (upgrade.go:505), and the upgrade is dropped without
an error for everybody.  Here account 4 remains banished although its referrer is open. -/
theorem C90_lost_violation : ∃ (dust : Int) (s : State) (rank : Key → Nat), Upward s.store rank ∧ Orderly s.store ∧ (∀ k, ∃ d, s.delegation k = some d) ∧
    Returns s.delegation dust 4 (infoOf s.store 4) ∧ (infoOf s.store 4).referrer = some 2 ∧ (infoOf s.store 2).closed s.now s.month = false ∧
    (infoOf s.store 4).tot .delegated 0 ≠ 0 ∧ readmit dust s = s := by
  have h : (readmitAll misjudged.delegation 10 misjudged.now misjudged.month misjudged.store.keys misjudged.store).isNone = true := by decide +kernel
  refine ⟨10, misjudged, id, (upward_of_check (by decide +kernel)).1, orderly_of_check (by decide +kernel), exiled_fits,
    returns_iff.2 (by decide +kernel), by decide +kernel, by decide +kernel, by decide +kernel, ?_⟩
  unfold readmit
  rw [Option.isNone_iff_eq_none.1 h]

end Verif.Referral
