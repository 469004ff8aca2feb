import Verif.Referral.RehomeCases

/-!
Property C90: version 2.3.2 readmits banished accounts that have delegated coins (`UnbanishAccountsWithDelegation`, /repo/app/upgrade.go:430-538).
-/
namespace Verif.Referral

/-! ### Model -/

/-- The loop in upgrade.go:478-485.  The inner `pi` (481) hides the outer one (479), which stays zero: after one closed account `parent` is "". -/
def homeFor (m : KV Nat Info) (now month : Int) : Option Key → Option (Option Key)
  | none => some none
  | some p => (m.get p).map fun u => if u.closed now month then none else some p

/-- upgrade.go:488-491 -/
def Info.readmitted (v : Info) : Info := { v with banished := false, banishmentAt := none, compressionAt := none, status := 1 }

/-- upgrade.go:503-526 -/
def welcome (acc : Key) (r : Info) (parent : Option Key) (m : KV Nat Info) : Option (KV Nat Info) :=
  if hollow r then
    match parent with
    | none => none
    | some q => amend (fun v => { v with referrals := v.referrals ++ [acc] }) q m
  else alongLine (meet acc r) 10 1 parent m

/-- One account, upgrade.go:463-532.  Here the record is read from the cache (465).  `delegation` is the balance in the bank as an `int64` (475), `none` if it is too large;
that keys are addresses (470-473) is taken for granted. -/
def readmitOne (delegation : Key → Option Int) (dust now month : Int) (acc : Key) (m : KV Nat Info) : Option (KV Nat Info) :=
  (m.get acc).bind fun r =>
    if !r.banished then some m
    else (delegation acc).bind fun d =>
      if dust < d then
        (homeFor m now month r.referrer).bind fun parent =>
          welcome acc { r.readmitted with referrer := parent } parent (m.set acc { r.readmitted with referrer := parent })
      else if r.compressionAt.isSome then some (m.set acc { r with compressionAt := none })
      else some m

def readmitAll (delegation : Key → Option Int) (dust now month : Int) : List Key → KV Nat Info → Option (KV Nat Info)
  | [], m => some m
  | k :: l, m => (readmitOne delegation dust now month k m).bind (readmitAll delegation dust now month l)

/-- The delegated coins in the bank, upgrade.go:475 -/
def State.delegation (s : State) (k : Key) : Option Int := toInt64? (s.delegated k)

/-- `UnbanishAccountsWithDelegation`, upgrade.go:430-538; `dust` is the parameter of the bank (460).  A panic is caught (450-458), and then nothing is written (535). -/
def readmit (dust : Int) (s : State) : State :=
  match readmitAll s.delegation dust s.now s.month s.store.keys s.store with
  | some m => { s with store := m }
  | none => s

/-! ### Specification -/

/-- Banished accounts with more delegated coins than dust -/
def Returns (delegation : Key → Option Int) (dust : Int) (k : Key) (v : Info) : Prop := v.banished = true ∧ ∃ d, delegation k = some d ∧ dust < d

instance (delegation : Key → Option Int) (dust : Int) (k : Key) (v : Info) : Decidable (Returns delegation dust k v) := by
  unfold Returns
  cases h : delegation k with
  | none => exact isFalse (by rintro ⟨-, d, h, -⟩; cases h)
  | some d =>
    exact decidable_of_iff (v.banished = true ∧ dust < d) (by
      constructor
      · rintro ⟨h1, h2⟩; exact ⟨h1, d, rfl, h2⟩
      · rintro ⟨h1, d', h2, h3⟩; cases h2; exact ⟨h1, h3⟩)

/-- The account `p` was open when the turn of `k` came: accounts are taken in the order of their keys. -/
def OpenAt (o m : KV Nat Info) (delegation : Key → Option Int) (dust now month : Int) (k p : Key) : Prop :=
  if p < k ∧ Returns delegation dust p (infoOf o p) then (infoOf m p).closed now month = false else (infoOf o p).closed now month = false

/-- What became of the record `v` of account `k`: readmitted, kept out, or never banished. -/
structure Became (o m : KV Nat Info) (delegation : Key → Option Int) (dust now month : Int) (k : Key) (v v' : Info) : Prop where
  back : Returns delegation dust k v → private' v' = private' v.readmitted ∧
    (∀ p, v'.referrer = some p ↔ v.referrer = some p ∧ OpenAt o m delegation dust now month k p)
  out : v.banished = true → ¬ Returns delegation dust k v → private' v' = private' { v with compressionAt := none } ∧ v'.referrer = v.referrer
  never : v.banished = false → private' v' = private' v ∧ v'.referrer = v.referrer

/-! ### The invariant -/

structure Readmitting (o : KV Nat Info) (delegation : Key → Option Int) (dust now month : Int) (D : Key → Prop) (m : KV Nat Info) : Prop where
  none : ∀ k, o.get k = none → m.get k = none
  done : ∀ k v, o.get k = some v → D k → ∃ v', m.get k = some v' ∧ Became o m delegation dust now month k v v'
  todo : ∀ k v, o.get k = some v → ¬ D k → ∃ v', m.get k = some v' ∧ private' v' = private' v ∧ v'.referrer = v.referrer

theorem welcome_linked {acc : Key} {r : Info} {parent : Option Key} {m m' : KV Nat Info} (h : welcome acc r parent m = some m') : Linked m m' := by
  unfold welcome at h
  split at h
  · cases parent with
    | none => cases h
    | some q => exact amend_linked (f := fun v => { v with referrals := v.referrals ++ [acc] }) (fun _ => ⟨rfl, rfl⟩) h
  · exact alongLine_linked (fun l v hl => meet_private acc r hl v) _ _ _ _ _ (le_refl 1) h

theorem banished_closed_eq {v : Info} {now month : Int} (h : v.banished = true) : v.closed now month = v.referrer.isSome := by
  unfold Info.closed; rw [h]; simp

/-- Whether a referrer is open now -/
theorem open_now {o m : KV Nat Info} {delegation : Key → Option Int} {dust now month : Int} {D : Key → Prop} {acc p : Key} {u' : Info}
    (hDl : ∀ k v, o.get k = some v → (D k ↔ k < acc)) (hm : Readmitting o delegation dust now month D m) (hp : m.get p = some u') :
    u'.closed now month = false ↔ OpenAt o m delegation dust now month acc p := by
  cases ho : o.get p with
  | none => rw [hm.none p ho] at hp; cases hp
  | some u =>
    unfold OpenAt
    rw [infoOf_get ho, infoOf_get hp]
    by_cases hd : D p
    · obtain ⟨w, h1, hb⟩ := hm.done p u ho hd
      rw [hp] at h1
      cases h1
      by_cases hret : Returns delegation dust p u
      · rw [if_pos ⟨(hDl p u ho).1 hd, hret⟩]
      · rw [if_neg fun h => hret h.2]
        by_cases hban : u.banished = true
        · obtain ⟨g1, g2⟩ := hb.out hban hret
          have : u'.banished = u.banished := (congrArg Info.banished g1 :)
          rw [banished_closed_eq hban, banished_closed_eq (this.trans hban), g2]
        · obtain ⟨g1, g2⟩ := hb.never (by simpa using hban)
          rw [closed_eq g1 (by rw [g2])]
    · obtain ⟨w, h1, h2, h3⟩ := hm.todo p u ho hd
      rw [hp] at h1
      cases h1
      rw [if_neg fun h => hd ((hDl p u ho).2 h.1), closed_eq h2 (by rw [h3])]

/-- What was done stays. -/
theorem Became.keep {o m m' : KV Nat Info} {delegation : Key → Option Int} {dust now month : Int} {k : Key} {v v' v'' : Info}
    (h : Became o m delegation dust now month k v v') (h1 : private' v'' = private' v') (h2 : v''.referrer = v'.referrer)
    (hc : ∀ p, p < k → Returns delegation dust p (infoOf o p) → (infoOf m' p).closed now month = (infoOf m p).closed now month) :
    Became o m' delegation dust now month k v v'' := by
  refine ⟨fun hr => ?_, fun hb hr => ?_, fun hb => ?_⟩
  · obtain ⟨g1, g2⟩ := h.back hr
    refine ⟨h1.trans g1, fun p => ?_⟩
    rw [h2, g2 p]
    unfold OpenAt
    split
    · next hh => rw [hc p hh.1 hh.2]
    · rfl
  · obtain ⟨g1, g2⟩ := h.out hb hr
    exact ⟨h1.trans g1, h2.trans g2⟩
  · obtain ⟨g1, g2⟩ := h.never hb
    exact ⟨h1.trans g1, h2.trans g2⟩

/-- A step that changes the record of `acc` and otherwise only lists and money below -/
theorem readmitting_step {o m m' : KV Nat Info} {delegation : Key → Option Int} {dust now month : Int} {D : Key → Prop} {acc : Key} {r w : Info}
    (hDl : ∀ k v, o.get k = some v → (D k ↔ k < acc)) (hr : o.get acc = some r) (hm : Readmitting o delegation dust now month D m)
    (hl : Linked (m.set acc w) m')
    (hw : ∀ w', private' w' = private' w → w'.referrer = w.referrer → Became o m delegation dust now month acc r w') :
    Readmitting o delegation dust now month (fun k => D k ∨ k = acc) m' := by
  have hD : ¬ D acc := fun h => lt_irrefl _ ((hDl acc r hr).1 h)
  have same : ∀ k v, k ≠ acc → m.get k = some v → ∃ v', m'.get k = some v' ∧ private' v' = private' v ∧ v'.referrer = v.referrer :=
    fun k v hk hv => hl.get (by rw [KV.get_set_ne _ _ hk]; exact hv)
  have hc : ∀ k, (D k ∨ k = acc) → (∃ v, o.get k = some v) → ∀ p, p < k → Returns delegation dust p (infoOf o p) →
      (infoOf m' p).closed now month = (infoOf m p).closed now month := by
    rintro k hk ⟨v, hv⟩ p hp hret
    cases ho : o.get p with
    | none =>
      have : infoOf o p = {} := by unfold infoOf; rw [ho]; rfl
      rw [this] at hret
      cases hret.1
    | some u =>
      have hpa : p < acc := by
        rcases hk with hk | rfl
        · exact lt_trans hp ((hDl k v hv).1 hk)
        · exact hp
      obtain ⟨u', h1, -⟩ := hm.done p u ho ((hDl p u ho).2 hpa)
      obtain ⟨u'', h2, h3, h4⟩ := same p u' (ne_of_lt hpa) h1
      rw [infoOf_get h1, infoOf_get h2]
      exact closed_eq h3 (by rw [h4])
  refine ⟨fun k hk => ?_, fun k v hv hd => ?_, fun k v hv hd => ?_⟩
  · have := hl k
    rw [KV.get_set_ne, hm.none k hk] at this
    · simpa using this
    · rintro rfl; rw [hr] at hk; cases hk
  · by_cases hka : k = acc
    · subst hka
      rw [hr] at hv
      cases hv
      obtain ⟨v', h1, h2, h3⟩ := hl.get (k := k) (v := w) (by rw [KV.get_set, if_pos rfl])
      exact ⟨v', h1, (hw v' h2 h3).keep rfl rfl (hc k (.inr rfl) ⟨_, hr⟩)⟩
    · have hd := hd.resolve_right hka
      obtain ⟨v', h1, hb⟩ := hm.done k v hv hd
      obtain ⟨v'', h2, h3, h4⟩ := same k v' hka h1
      exact ⟨v'', h2, hb.keep h3 h4 (hc k (.inl hd) ⟨_, hv⟩)⟩
  · obtain ⟨v', h1, h2, h3⟩ := hm.todo k v hv fun h => hd (.inl h)
    obtain ⟨v'', h4, h5, h6⟩ := same k v' (fun h => hd (.inr h)) h1
    exact ⟨v'', h4, h5.trans h2, h6.trans h3⟩

theorem set_self {m : KV Nat Info} {k : Key} {v : Info} (h : m.get k = some v) : Linked (m.set k v) m := by
  intro x
  rw [KV.get_set]
  split
  · next e => rw [e, h]
  · rfl

theorem private_readmitted {v w : Info} (h : private' v = private' w) : private' v.readmitted = private' w.readmitted := by
  have e : ∀ x : Info, private' x.readmitted = (private' x).readmitted := fun _ => rfl
  rw [e, e, h]

theorem readmitOne_step {o m m' : KV Nat Info} {delegation : Key → Option Int} {dust now month : Int} {D : Key → Prop} {acc : Key} {r : Info}
    (hDl : ∀ k v, o.get k = some v → (D k ↔ k < acc)) (hr : o.get acc = some r) (hm : Readmitting o delegation dust now month D m)
    (h : readmitOne delegation dust now month acc m = some m') : Readmitting o delegation dust now month (fun k => D k ∨ k = acc) m' := by
  have hD : ¬ D acc := fun h => lt_irrefl _ ((hDl acc r hr).1 h)
  obtain ⟨r1, e1, e2, e3⟩ := hm.todo acc r hr hD
  have eb : r1.banished = r.banished := (congrArg Info.banished e2 :)
  have ec : r1.compressionAt = r.compressionAt := (congrArg Info.compressionAt e2 :)
  unfold readmitOne at h
  rw [e1, Option.bind_some] at h
  split at h
  · next hb =>
    have hb : r.banished = false := by rw [← eb]; simpa using hb
    cases h
    refine readmitting_step hDl hr hm (set_self e1) fun w' h1 h2 => ⟨fun hret => ?_, fun hban _ => ?_, fun _ => ⟨h1.trans e2, h2.trans e3⟩⟩
    · rw [hret.1] at hb; cases hb
    · rw [hban] at hb; cases hb
  · next hb =>
    have hb : r.banished = true := by rw [← eb]; simpa using hb
    obtain ⟨d, hd, h⟩ := Option.bind_eq_some_iff.1 h
    split at h
    · next hlt =>
      have hret : Returns delegation dust acc r := ⟨hb, d, hd, hlt⟩
      obtain ⟨parent, hp, h⟩ := Option.bind_eq_some_iff.1 h
      refine readmitting_step hDl hr hm (welcome_linked h) fun w' h1 h2 => ⟨fun _ => ⟨?_, fun p => ?_⟩, fun _ hn => absurd hret hn, fun hn => ?_⟩
      · rw [h1, ← private_readmitted e2]
        rfl
      · have h2 : w'.referrer = parent := h2
        rw [h2]
        rw [e3] at hp
        cases hrr : r.referrer with
        | none =>
          rw [hrr] at hp
          cases hp
          constructor
          · intro h; cases h
          · rintro ⟨h, -⟩; cases h
        | some p0 =>
          rw [hrr] at hp
          unfold homeFor at hp
          obtain ⟨u, hu, hp⟩ := Option.map_eq_some_iff.1 hp
          have hop := open_now hDl hm hu
          rw [← hp]
          constructor
          · intro h
            split at h
            · cases h
            · next hc =>
              injection h with h
              subst h
              exact ⟨rfl, hop.1 (by simpa using hc)⟩
          · rintro ⟨h3, h4⟩
            injection h3 with h3
            subst h3
            rw [if_neg (by rw [hop.2 h4]; simp)]
      · rw [hn] at hb; cases hb
    · next hlt =>
      have hret : ¬ Returns delegation dust acc r := by
        rintro ⟨-, d', h1, h2⟩
        rw [hd] at h1
        cases h1
        exact hlt h2
      have hpc : private' { r1 with compressionAt := none } = private' { r with compressionAt := none } := by
        have e : ∀ x : Info, private' { x with compressionAt := none } = { private' x with compressionAt := none } := fun _ => rfl
        rw [e, e, e2]
      split at h
      · cases h
        refine readmitting_step (w := { r1 with compressionAt := none }) hDl hr hm (.refl _) fun w' h1 h2 =>
          ⟨fun hn => absurd hn hret, fun _ _ => ⟨h1.trans hpc, h2.trans e3⟩, fun hn => ?_⟩
        rw [hn] at hb; cases hb
      · next hcn =>
        cases h
        refine readmitting_step hDl hr hm (set_self e1) fun w' h1 h2 => ⟨fun hn => absurd hn hret, fun _ _ => ⟨h1.trans ?_, h2.trans e3⟩, fun hn => ?_⟩
        · rw [← hpc]
          have : r1.compressionAt = none := by simpa using hcn
          rw [← this]
        · rw [hn] at hb; cases hb

theorem keys_split {o : KV Nat Info} {d l : List Key} {k : Key} (hd : o.keys = d ++ k :: l) :
    (∀ x v, o.get x = some v → (x ∈ d ↔ x < k)) ∧ ∃ v, o.get k = some v := by
  have hs : (d ++ k :: l).Pairwise (· < ·) := by rw [← hd]; exact o.keys_sorted
  rw [List.pairwise_append, List.pairwise_cons] at hs
  obtain ⟨-, ⟨s2, -⟩, s3⟩ := hs
  refine ⟨fun x v hx => ?_, KV.mem_keys.1 (by rw [hd]; simp)⟩
  have hin : x ∈ d ++ k :: l := by rw [← hd]; exact KV.mem_keys.2 ⟨v, hx⟩
  constructor
  · intro h; exact s3 x h k (by simp)
  · intro hlt
    rcases List.mem_append.1 hin with h | h
    · exact h
    · rcases List.mem_cons.1 h with h | h
      · rw [h] at hlt; exact absurd hlt (lt_irrefl _)
      · exact absurd (lt_trans hlt (s2 _ h)) (lt_irrefl _)

theorem readmitAll_done {o : KV Nat Info} {delegation : Key → Option Int} {dust now month : Int} :
    ∀ (l d : List Key) (m m' : KV Nat Info), o.keys = d ++ l → Readmitting o delegation dust now month (· ∈ d) m →
      readmitAll delegation dust now month l m = some m' → Readmitting o delegation dust now month (· ∈ o.keys) m' := by
  intro l
  induction l with
  | nil =>
    intro d m m' hd hm h
    unfold readmitAll at h
    cases h
    rw [hd, List.append_nil]
    exact hm
  | cons k l ih =>
    intro d m m' hd hm h
    unfold readmitAll at h
    obtain ⟨m1, h1, h2⟩ := Option.bind_eq_some_iff.1 h
    obtain ⟨hDl, r, hr⟩ := keys_split hd
    have s1 := readmitOne_step hDl hr hm h1
    have e' : (fun x => x ∈ d ∨ x = k) = (· ∈ d ++ [k]) := by funext x; simp
    rw [e'] at s1
    exact ih (d ++ [k]) m1 m' (by rw [hd]; simp) s1 h2

theorem readmitting_start (o : KV Nat Info) (delegation : Key → Option Int) (dust now month : Int) :
    Readmitting o delegation dust now month (· ∈ ([] : List Key)) o :=
  ⟨fun _ h => h, fun _ _ _ h => absurd h List.not_mem_nil, fun _ v hv _ => ⟨v, hv, rfl, rfl⟩⟩

/-! ### The property -/

/-- C90: if nothing goes wrong on the way, every banished account with more delegated coins than dust is readmitted: no longer banished, at the lowest status, without dates of
banishment and compression, and below its former referrer if that one was open at this moment, otherwise without referrer.  Other banished accounts
lose the date of compression, and all else stays but for lists of referrals and money below. -/
theorem C90_readmitted (dust : Int) (s : State) (m : KV Nat Info) (h : readmitAll s.delegation dust s.now s.month s.store.keys s.store = some m) :
    (readmit dust s).store = m ∧ (∀ k, s.store.get k = none → m.get k = none) ∧
    ∀ k v, s.store.get k = some v → ∃ v', m.get k = some v' ∧
      (Returns s.delegation dust k v → v'.banished = false ∧ v'.banishmentAt = none ∧ v'.compressionAt = none ∧ v'.status = 1 ∧
        private' v' = private' { v with banished := false, banishmentAt := none, compressionAt := none, status := 1 } ∧
        (∀ p, v'.referrer = some p ↔ v.referrer = some p ∧ OpenAt s.store m s.delegation dust s.now s.month k p)) ∧
      (v.banished = true → ¬ Returns s.delegation dust k v → private' v' = private' { v with compressionAt := none } ∧ v'.referrer = v.referrer) ∧
      (v.banished = false → private' v' = private' v ∧ v'.referrer = v.referrer) := by
  have hs := readmitAll_done s.store.keys [] s.store m rfl (readmitting_start _ _ _ _ _) h
  refine ⟨by unfold readmit; rw [h], hs.none, fun k v hv => ?_⟩
  obtain ⟨v', g1, g2⟩ := hs.done k v hv (KV.mem_keys.2 ⟨v, hv⟩)
  refine ⟨v', g1, fun hr => ?_, g2.out, g2.never⟩
  obtain ⟨h1, h2⟩ := g2.back hr
  exact ⟨(congrArg Info.banished h1 :), (congrArg Info.banishmentAt h1 :), (congrArg Info.compressionAt h1 :), (congrArg Info.status h1 :), h1, h2⟩

end Verif.Referral
