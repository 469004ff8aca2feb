import Verif.Referral.Recount

/-!
Property C89: version 2.3.2 takes accounts away from banished referrers (`TransferFromTheBanished`, /repo/app/upgrade.go:540-663).
-/
namespace Verif.Referral

/-! ### Model -/

/-- A line of ancestors, upgrade.go:616-632 and 634-650: at most `n` accounts from `a` upwards, level `l` on.  `none` = panic in `get` ("not found").
All this happens on a cache of the store, 545-557. -/
def alongLine (f : Nat → Info → Info) : Nat → Nat → Option Key → KV Nat Info → Option (KV Nat Info)
  | 0, _, _, m => some m
  | _ + 1, _, none, m => some m
  | n + 1, l, some a, m =>
    match m.get a with
    | none => none
    | some v => alongLine f n (l + 1) v.referrer (m.set a (f l v))

/-- Coins and delegated coins of the account and those below it, upgrade.go:625-628 and 643-646; numbers of active accounts are left alone. -/
def Info.addMoney (v : Info) (sign : Int) (r : Info) (l : Nat) : Info :=
  { v with tot := fun w j => if w ≠ .active ∧ l ≤ j ∧ j ≤ 10 then v.tot w j + sign * r.tot w (j - l) else v.tot w j }

def part (acc : Key) (r : Info) (l : Nat) (v : Info) : Info :=
  if l = 1 then { v.addMoney (-1) r l with referrals := removeOrdered v.referrals acc } else v.addMoney (-1) r l

def meet (acc : Key) (r : Info) (l : Nat) (v : Info) : Info :=
  if l = 1 then { v.addMoney 1 r l with referrals := v.referrals ++ [acc] } else v.addMoney 1 r l

/-- `empty`, upgrade.go:598-604 -/
def hollow (r : Info) : Bool := (List.range 11).all fun i => decide (r.tot .coins i = 0) && decide (r.tot .delegated i = 0)

/-- A single account, upgrade.go:608-610 and 612-614 -/
def amend (f : Info → Info) (a : Key) (m : KV Nat Info) : Option (KV Nat Info) := (m.get a).map fun v => m.set a (f v)

/-- The way up, upgrade.go:587-596: the first account from `p` on that is open.  `none` = panic, or no end in sight (the code would run for ever). -/
def goUp (m : KV Nat Info) (now month : Int) : Nat → Option Key → Option (Option Key)
  | 0, _ => none
  | _ + 1, none => some none
  | n + 1, some p =>
    match m.get p with
    | none => none
    | some v => if v.closed now month then goUp m now month n v.referrer else some (some p)

/-- upgrade.go:606-651; the text "" is no account. -/
def relink (acc : Key) (r : Info) (old : Key) (new : Option Key) (m : KV Nat Info) : Option (KV Nat Info) :=
  if hollow r then
    (amend (fun v => { v with referrals := removeOrdered v.referrals acc }) old m).bind fun m1 =>
      match new with
      | none => none
      | some q => amend (fun v => { v with referrals := v.referrals ++ [acc] }) q m1
  else (alongLine (part acc r) 10 1 (some old) m).bind fun m1 => alongLine (meet acc r) 10 1 new m1

/-- One account, upgrade.go:570-656.  `r` is the value the iterator shows, which is the one of the start (559, 574). -/
def rehomeOne (now month : Int) (acc : Key) (r : Info) (m : KV Nat Info) : Option (KV Nat Info) :=
  if r.banished then some m
  else match r.referrer with
    | none => some m
    | some old =>
      match m.get old with
      | none => none
      | some v =>
        if !v.banished then some m
        else (goUp m now month (m.keys.length + 1) v.referrer).bind fun new =>
          (relink acc r old new m).map fun m1 => m1.set acc { r with referrer := new }

def rehomeAll (now month : Int) : List (Key × Info) → KV Nat Info → Option (KV Nat Info)
  | [], m => some m
  | e :: l, m => (rehomeOne now month e.1 e.2 m).bind (rehomeAll now month l)

/-- `TransferFromTheBanished`, upgrade.go:540-663.  A panic is caught (561-563), and then nothing is written (660). -/
def rehome (s : State) : State :=
  match rehomeAll s.now s.month s.store.entries s.store with
  | some m => { s with store := m }
  | none => s

/-! ### Specification -/

/-- `q` is the first open account above `k`. -/
inductive FirstOpen (st : KV Nat Info) (now month : Int) : Key → Key → Prop
  | here {k p : Key} {v u : Info} : st.get k = some v → v.referrer = some p → st.get p = some u → u.closed now month = false → FirstOpen st now month k p
  | up {k p q : Key} {v u : Info} : st.get k = some v → v.referrer = some p → st.get p = some u → u.closed now month = true →
      FirstOpen st now month p q → FirstOpen st now month k q

/-- A present account whose referrer `p` is banished. -/
def Orphan (st : KV Nat Info) (r : Info) (p : Key) : Prop := r.banished = false ∧ r.referrer = some p ∧ ∃ u, st.get p = some u ∧ u.banished = true

/-- Everything in a record but the links and the money below. -/
def private' (v : Info) : Info :=
  { v with referrer := none, referrals := [], tot := fun w l => if w = .active ∨ l = 0 then v.tot w l else 0 }

theorem FirstOpen.open' {st : KV Nat Info} {now month : Int} {k q : Key} (h : FirstOpen st now month k q) :
    ∃ u, st.get q = some u ∧ u.closed now month = false := by
  induction h with
  | here _ _ h3 h4 => exact ⟨_, h3, h4⟩
  | up _ _ _ _ _ ih => exact ih

theorem FirstOpen.unique {st : KV Nat Info} {now month : Int} {k q q' : Key} (h : FirstOpen st now month k q) (h' : FirstOpen st now month k q') : q = q' := by
  induction h with
  | here h1 h2 h3 h4 =>
    cases h' with
    | here g1 g2 g3 g4 => rw [h1] at g1; cases g1; rw [h2] at g2; cases g2; rfl
    | up g1 g2 g3 g4 _ => rw [h1] at g1; cases g1; rw [h2] at g2; cases g2; rw [h3] at g3; cases g3; rw [h4] at g4; cases g4
  | up h1 h2 h3 h4 _ ih =>
    cases h' with
    | here g1 g2 g3 g4 => rw [h1] at g1; cases g1; rw [h2] at g2; cases g2; rw [h3] at g3; cases g3; rw [h4] at g4; cases g4
    | up g1 g2 g3 g4 g5 => rw [h1] at g1; cases g1; rw [h2] at g2; cases g2; exact ih g5

/-! ### What the lines of ancestors keep -/

/-- The stores agree but for lists of referrals and money below. -/
def Linked (m m' : KV Nat Info) : Prop :=
  ∀ k, (m'.get k).map (fun v => (private' v, v.referrer)) = (m.get k).map (fun v => (private' v, v.referrer))

theorem Linked.refl (m : KV Nat Info) : Linked m m := fun _ => rfl
theorem Linked.trans {a b c : KV Nat Info} (h : Linked a b) (g : Linked b c) : Linked a c := fun k => (g k).trans (h k)

theorem Linked.get {m m' : KV Nat Info} (h : Linked m m') {k : Key} {v : Info} (hv : m.get k = some v) :
    ∃ v', m'.get k = some v' ∧ private' v' = private' v ∧ v'.referrer = v.referrer := by
  have := h k
  rw [hv] at this
  cases hg : m'.get k with
  | none => rw [hg] at this; cases this
  | some v' =>
    rw [hg] at this
    injection this with this
    injection this with h1 h2
    exact ⟨v', rfl, h1, h2⟩

theorem linked_set {m : KV Nat Info} {a : Key} {v w : Info} (hv : m.get a = some v) (h1 : private' w = private' v) (h2 : w.referrer = v.referrer) :
    Linked m (m.set a w) := by
  intro k
  rw [KV.get_set]
  split
  · next hk => rw [hk, hv, Option.map_some, Option.map_some, h1, h2]
  · rfl

theorem private_money (v : Info) (sign : Int) (r : Info) {l : Nat} (hl : 1 ≤ l) (refs : List Key) :
    private' { v.addMoney sign r l with referrals := refs } = private' v := by
  unfold private' Info.addMoney
  congr 1
  funext w j
  show (if w = What.active ∨ j = 0 then (if w ≠ .active ∧ l ≤ j ∧ j ≤ 10 then _ else _) else _) = _
  by_cases h : w = .active ∨ j = 0
  · rw [if_pos h, if_pos h, if_neg]
    rintro ⟨h1, h2, -⟩
    rcases h with h | h
    · exact h1 h
    · omega
  · rw [if_neg h, if_neg h]

theorem part_private (acc : Key) (r : Info) {l : Nat} (hl : 1 ≤ l) (v : Info) : private' (part acc r l v) = private' v ∧ (part acc r l v).referrer = v.referrer := by
  unfold part
  split
  · exact ⟨private_money v _ r hl _, rfl⟩
  · exact ⟨private_money v _ r hl v.referrals, rfl⟩

theorem meet_private (acc : Key) (r : Info) {l : Nat} (hl : 1 ≤ l) (v : Info) : private' (meet acc r l v) = private' v ∧ (meet acc r l v).referrer = v.referrer := by
  unfold meet
  split
  · exact ⟨private_money v _ r hl _, rfl⟩
  · exact ⟨private_money v _ r hl v.referrals, rfl⟩

theorem alongLine_linked {f : Nat → Info → Info} (hf : ∀ l v, 1 ≤ l → private' (f l v) = private' v ∧ (f l v).referrer = v.referrer) :
    ∀ (n l : Nat) (a : Option Key) (m m' : KV Nat Info), 1 ≤ l → alongLine f n l a m = some m' → Linked m m' := by
  intro n
  induction n with
  | zero => intro l a m m' _ h; unfold alongLine at h; cases h; exact .refl _
  | succ n ih =>
    intro l a m m' hl h
    cases a with
    | none => unfold alongLine at h; cases h; exact .refl _
    | some a =>
      unfold alongLine at h
      cases hv : m.get a with
      | none => rw [hv] at h; cases h
      | some v =>
        rw [hv] at h
        exact (linked_set hv (hf l v hl).1 (hf l v hl).2).trans (ih _ _ _ _ (by omega) h)

theorem amend_linked {f : Info → Info} (hf : ∀ v, private' (f v) = private' v ∧ (f v).referrer = v.referrer) {a : Key} {m m' : KV Nat Info}
    (h : amend f a m = some m') : Linked m m' := by
  unfold amend at h
  obtain ⟨v, hv, rfl⟩ := Option.map_eq_some_iff.1 h
  exact linked_set hv (hf v).1 (hf v).2

theorem relink_linked {acc : Key} {r : Info} {old : Key} {new : Option Key} {m m' : KV Nat Info} (h : relink acc r old new m = some m') : Linked m m' := by
  unfold relink at h
  split at h
  · obtain ⟨m1, h1, h2⟩ := Option.bind_eq_some_iff.1 h
    cases new with
    | none => cases h2
    | some q => exact (amend_linked (f := fun v => { v with referrals := removeOrdered v.referrals acc }) (fun _ => ⟨rfl, rfl⟩) h1).trans (amend_linked (f := fun v => { v with referrals := v.referrals ++ [acc] }) (fun _ => ⟨rfl, rfl⟩) h2)
  · obtain ⟨m1, h1, h2⟩ := Option.bind_eq_some_iff.1 h
    exact (alongLine_linked (fun l v hl => part_private acc r hl v) _ _ _ _ _ (le_refl 1) h1).trans
      (alongLine_linked (fun l v hl => meet_private acc r hl v) _ _ _ _ _ (le_refl 1) h2)

/-! ### The invariant -/

/-- The orphans among `D` are at their new places, all others where they were. -/
structure Settling (o : KV Nat Info) (now month : Int) (D : Key → Prop) (m : KV Nat Info) : Prop where
  none : ∀ k, o.get k = none → m.get k = none
  some : ∀ k v, o.get k = some v → ∃ v', m.get k = some v' ∧ private' v' = private' v ∧
    (∀ p, D k → Orphan o v p → ∃ q, FirstOpen o now month p q ∧ v'.referrer = some q) ∧
    (¬ (D k ∧ ∃ p, Orphan o v p) → v'.referrer = v.referrer)

theorem closed_eq {v v' : Info} {now month : Int} (h : private' v' = private' v) (hr : v'.referrer.isSome = v.referrer.isSome) :
    v'.closed now month = v.closed now month := by
  have h1 : v'.banished = v.banished := (congrArg Info.banished h :)
  have h2 : v'.active = v.active := (congrArg Info.active h :)
  have h3 : v'.compressionAt = v.compressionAt := (congrArg Info.compressionAt h :)
  unfold Info.closed
  rw [h1, h2, h3, hr]

theorem banished_closed {v : Info} {now month : Int} (h : v.banished = true) (hr : v.referrer ≠ none) : v.closed now month = true := by
  unfold Info.closed
  rw [h]
  cases hh : v.referrer with
  | none => exact absurd hh hr
  | some => rfl

theorem closed_referrer {v : Info} {now month : Int} (h : v.closed now month = true) : ∃ p, v.referrer = some p := by
  unfold Info.closed at h
  cases hh : v.referrer with
  | none => rw [hh] at h; simp at h
  | some p => exact ⟨p, rfl⟩

theorem goUp_first {o m : KV Nat Info} {now month : Int} {D : Key → Prop} (hb : ∀ k v, o.get k = some v → v.banished = true → v.referrer ≠ none)
    (hm : Settling o now month D m) : ∀ (n : Nat) (p : Key) (x : Option Key), goUp m now month n (some p) = some x →
      ∃ q u, x = some q ∧ o.get p = some u ∧ ((u.closed now month = false ∧ q = p) ∨ (u.closed now month = true ∧ FirstOpen o now month p q)) := by
  intro n
  induction n with
  | zero => intro p x h; cases h
  | succ n ih =>
    intro p x h
    unfold goUp at h
    cases hu : o.get p with
    | none => rw [hm.none p hu] at h; cases h
    | some u =>
      obtain ⟨u', g1, g2, g3, g4⟩ := hm.some p u hu
      rw [g1] at h
      have hs : u'.referrer.isSome = u.referrer.isSome := by
        by_cases hD : D p ∧ ∃ y, Orphan o u y
        · obtain ⟨hd, y, hy⟩ := hD
          obtain ⟨q, -, hq⟩ := g3 y hd hy
          rw [hq, hy.2.1]
          rfl
        · rw [g4 hD]
      have hc := closed_eq (now := now) (month := month) g2 hs
      simp only [hc] at h
      by_cases hcl : u.closed now month = true
      · rw [if_pos hcl] at h
        by_cases hD : D p ∧ ∃ y, Orphan o u y
        · obtain ⟨hd, y, hy⟩ := hD
          obtain ⟨q, hq1, hq2⟩ := g3 y hd hy
          rw [hq2] at h
          obtain ⟨q', w, e1, e2, e3⟩ := ih q x h
          obtain ⟨w', e4, e5⟩ := hq1.open'
          rw [e2] at e4
          cases e4
          rcases e3 with ⟨-, rfl⟩ | ⟨e3, -⟩
          · obtain ⟨-, hy2, z, hy3, hy4⟩ := hy
            exact ⟨q', u, e1, rfl, .inr ⟨hcl, .up hu hy2 hy3 (banished_closed hy4 (hb y z hy3 hy4)) hq1⟩⟩
          · rw [e5] at e3; cases e3
        · rw [g4 hD] at h
          obtain ⟨y, hy⟩ := closed_referrer hcl
          rw [hy] at h
          obtain ⟨q, w, e1, e2, e3⟩ := ih y x h
          refine ⟨q, u, e1, rfl, .inr ⟨hcl, ?_⟩⟩
          rcases e3 with ⟨e3, rfl⟩ | ⟨e3, e4⟩
          · exact .here hu hy e2 e3
          · exact .up hu hy e2 e3 e4
      · rw [if_neg hcl] at h
        cases h
        exact ⟨p, u, rfl, rfl, .inl ⟨by simpa using hcl, rfl⟩⟩

theorem rehomeOne_settling {o m m' : KV Nat Info} {now month : Int} {D : Key → Prop} {acc : Key} {r : Info}
    (hb : ∀ k v, o.get k = some v → v.banished = true → v.referrer ≠ none) (hr : o.get acc = some r) (hD : ¬ D acc) (hm : Settling o now month D m)
    (h : rehomeOne now month acc r m = some m') : Settling o now month (fun k => D k ∨ k = acc) m' := by
  have still : (∀ p, ¬ Orphan o r p) → m' = m → Settling o now month (fun k => D k ∨ k = acc) m' := by
    rintro hno rfl
    refine ⟨hm.none, fun k v hv => ?_⟩
    obtain ⟨v', g1, g2, g3, g4⟩ := hm.some k v hv
    refine ⟨v', g1, g2, fun p hd hp => ?_, fun hn => g4 fun ⟨h1, h2⟩ => hn ⟨.inl h1, h2⟩⟩
    rcases hd with hd | rfl
    · exact g3 p hd hp
    · rw [hr] at hv
      cases hv
      exact absurd hp (hno p)
  unfold rehomeOne at h
  split at h
  · next hban =>
    cases h
    exact still (fun p hp => by rw [hp.1] at hban; cases hban) rfl
  · next hban =>
    split at h
    · next href =>
      cases h
      exact still (fun p hp => by rw [hp.2.1] at href; cases href) rfl
    · next old href =>
      split at h
      · cases h
      · next v hv =>
        cases hw : o.get old with
        | none => rw [hm.none old hw] at hv; cases hv
        | some w =>
          obtain ⟨w', g1, g2, g3, g4⟩ := hm.some old w hw
          rw [hv] at g1
          cases g1
          have hbw : v.banished = w.banished := (congrArg Info.banished g2 :)
          split at h
          · next hvb =>
            cases h
            refine still (fun p hp => ?_) rfl
            obtain ⟨-, h2, u, h3, h4⟩ := hp
            rw [href] at h2
            cases h2
            rw [hw] at h3
            cases h3
            rw [hbw, h4] at hvb
            cases hvb
          · next hvb =>
            have hwb : w.banished = true := by rw [← hbw]; simpa using hvb
            have hban : r.banished = false := by simpa using hban
            have horphan : Orphan o r old := ⟨hban, href, w, hw, hwb⟩
            obtain ⟨new, h1, h2⟩ := Option.bind_eq_some_iff.1 h
            obtain ⟨m1, h3, rfl⟩ := Option.map_eq_some_iff.1 h2
            have hl := relink_linked h3
            have hwr : v.referrer = w.referrer := g4 (by
              rintro ⟨-, p, hp⟩
              rw [hp.1] at hwb
              cases hwb)
            obtain ⟨x, hx⟩ : ∃ x, w.referrer = some x := Option.ne_none_iff_exists'.1 (hb old w hw hwb)
            rw [hwr, hx] at h1
            obtain ⟨q, u, rfl, e2, e3⟩ := goUp_first hb hm _ x new h1
            have hfirst : FirstOpen o now month old q := by
              rcases e3 with ⟨e3, rfl⟩ | ⟨e3, e4⟩
              · exact .here hw hx e2 e3
              · exact .up hw hx e2 e3 e4
            refine ⟨fun k hk => ?_, fun k z hz => ?_⟩
            · rw [KV.get_set_ne]
              · have := hl k
                rw [hm.none k hk] at this
                simpa using this
              · rintro rfl
                rw [hr] at hk
                cases hk
            · by_cases hka : k = acc
              · subst hka
                rw [hr] at hz
                cases hz
                refine ⟨{ r with referrer := some q }, by rw [KV.get_set, if_pos rfl], rfl, fun p _ hp => ?_, fun hn => ?_⟩
                · have := hp.2.1
                  rw [href] at this
                  cases this
                  exact ⟨q, hfirst, rfl⟩
                · exact absurd ⟨.inr rfl, old, horphan⟩ hn
              · obtain ⟨z', f1, f2, f3, f4⟩ := hm.some k z hz
                obtain ⟨z'', f5, f6, f7⟩ := hl.get f1
                refine ⟨z'', by rw [KV.get_set_ne _ _ hka]; exact f5, f6.trans f2, fun p hd hp => ?_, fun hn => ?_⟩
                · rw [f7]
                  exact f3 p (hd.resolve_right hka) hp
                · rw [f7]
                  exact f4 fun ⟨g1, g2⟩ => hn ⟨.inl g1, g2⟩

theorem rehomeAll_settling {o : KV Nat Info} {now month : Int} (hb : ∀ k v, o.get k = some v → v.banished = true → v.referrer ≠ none) :
    ∀ (l : List (Key × Info)) (m m' : KV Nat Info) (D : Key → Prop), SortedKeys l → (∀ e ∈ l, o.get e.1 = some e.2 ∧ ¬ D e.1) → Settling o now month D m →
      rehomeAll now month l m = some m' → Settling o now month (fun k => D k ∨ k ∈ l.map Prod.fst) m' := by
  intro l
  induction l with
  | nil =>
    intro m m' D _ _ hm h
    unfold rehomeAll at h
    cases h
    simpa using hm
  | cons e l ih =>
    intro m m' D hs he hm h
    unfold rehomeAll at h
    obtain ⟨m1, h1, h2⟩ := Option.bind_eq_some_iff.1 h
    unfold SortedKeys at hs
    rw [List.pairwise_cons] at hs
    have s1 := rehomeOne_settling hb (he e (by simp)).1 (he e (by simp)).2 hm h1
    have := ih m1 m' _ hs.2 (fun x hx => ⟨(he x (by simp [hx])).1, fun hd => by
      rcases hd with hd | hd
      · exact (he x (by simp [hx])).2 hd
      · have := hs.1 x hx
        rw [hd] at this
        exact lt_irrefl _ this⟩) s1 h2
    have e' : (fun k => (D k ∨ k = e.1) ∨ k ∈ l.map Prod.fst) = fun k => D k ∨ k ∈ (e :: l).map Prod.fst := by
      funext k
      simp only [List.map_cons, List.mem_cons, eq_iff_iff]
      tauto
    rw [← e']
    exact this

/-! ### The property -/

/-- C89: if nothing goes wrong on the way, every present account below a banished one is now below the first open account above that one; the referrers of
all others stay, and so does everything else in the records but lists of referrals and the money below. -/
theorem C89_moved (s : State) (m : KV Nat Info) (h : rehomeAll s.now s.month s.store.entries s.store = some m)
    (hb : ∀ k v, s.store.get k = some v → v.banished = true → v.referrer ≠ none) :
    (rehome s).store = m ∧ (∀ k, s.store.get k = none → m.get k = none) ∧
    ∀ k r, s.store.get k = some r → ∃ r', m.get k = some r' ∧ private' r' = private' r ∧
      (∀ p, Orphan s.store r p → ∃ q, FirstOpen s.store s.now s.month p q ∧ r'.referrer = some q) ∧
      ((∀ p, ¬ Orphan s.store r p) → r'.referrer = r.referrer) := by
  have hs := rehomeAll_settling hb s.store.entries s.store m (fun _ => False) s.store.sorted (fun e he => ⟨KV.mem_entries.1 he, id⟩)
    ⟨fun _ h => h, fun k v hv => ⟨v, hv, rfl, fun _ h => h.elim, fun _ => rfl⟩⟩ h
  refine ⟨by unfold rehome; rw [h], hs.none, fun k r hr => ?_⟩
  obtain ⟨r', g1, g2, g3, g4⟩ := hs.some k r hr
  have hk : False ∨ k ∈ s.store.entries.map Prod.fst := .inr (KV.mem_keys.2 ⟨r, hr⟩)
  exact ⟨r', g1, g2, fun p hp => g3 p hk hp, fun hn => g4 fun ⟨_, p, hp⟩ => hn p hp⟩

/-- C89: nobody present has a banished referrer afterwards. -/
theorem C89_nobody_left (s : State) (m : KV Nat Info) (h : rehomeAll s.now s.month s.store.entries s.store = some m)
    (hb : ∀ k v, s.store.get k = some v → v.banished = true → v.referrer ≠ none) (k p : Key) (r u : Info) (hr : (rehome s).store.get k = some r)
    (hrb : r.banished = false) (hp : r.referrer = some p) (hu : (rehome s).store.get p = some u) : u.banished = false := by
  obtain ⟨e, hnone, hsome⟩ := C89_moved s m h hb
  rw [e] at hr hu
  have orig : ∀ {k : Key} {r : Info}, m.get k = some r → ∃ v, s.store.get k = some v := by
    intro k r hr
    cases hv : s.store.get k with
    | none => rw [hnone k hv] at hr; cases hr
    | some v => exact ⟨v, rfl⟩
  obtain ⟨r0, hr0⟩ := orig hr
  obtain ⟨u0, hu0⟩ := orig hu
  obtain ⟨r', g1, g2, g3, g4⟩ := hsome k r0 hr0
  rw [hr] at g1; cases g1
  obtain ⟨u', f1, f2, -, -⟩ := hsome p u0 hu0
  rw [hu] at f1; cases f1
  have b1 : r.banished = r0.banished := (congrArg Info.banished g2 :)
  have b2 : u.banished = u0.banished := (congrArg Info.banished f2 :)
  rw [b2]
  rw [b1] at hrb
  by_cases ho : ∃ y, Orphan s.store r0 y
  · obtain ⟨y, hy⟩ := ho
    obtain ⟨q, hq1, hq2⟩ := g3 y hy
    rw [hp] at hq2
    cases hq2
    obtain ⟨w, w1, w2⟩ := hq1.open'
    rw [hu0] at w1
    cases w1
    rw [← Bool.not_eq_true]
    intro hban
    rw [banished_closed hban (hb p _ hu0 hban)] at w2
    cases w2
  · rw [g4 (fun y hy => ho ⟨y, hy⟩)] at hp
    rw [← Bool.not_eq_true]
    intro hban
    exact ho ⟨p, hrb, hp, u0, hu0, hban⟩

end Verif.Referral
