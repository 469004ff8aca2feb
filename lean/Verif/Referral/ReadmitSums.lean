import Verif.Referral.RehomeSumCases
import Verif.Referral.Readmit2

/-! Property C90, continued: the sums of money below. -/
namespace Verif.Referral

/-- Below accounts that return to a referrer there are banished accounts only. -/
def Alone (st : KV Nat Info) (delegation : Key → Option Int) (dust : Int) : Prop :=
  ∀ k v, st.get k = some v → Returns delegation dust k v → v.referrer ≠ none → ∀ c n u, ancestor st c n = some k → st.get c = some u → u.banished = true

theorem readmitting_get {o m : KV Nat Info} {delegation : Key → Option Int} {dust now month : Int} {D : Key → Prop} (hm : Readmitting o delegation dust now month D m)
    {c : Key} {v' : Info} (h : m.get c = some v') : ∃ v, o.get c = some v ∧ (∀ p, v'.referrer = some p → v.referrer = some p) ∧ (v'.banished = true → v.banished = true) := by
  cases ho : o.get c with
  | none => rw [hm.none c ho] at h; cases h
  | some v =>
    refine ⟨v, rfl, ?_⟩
    by_cases hd : D c
    · obtain ⟨w, h1, hb⟩ := hm.done c v ho hd
      rw [h] at h1
      cases h1
      by_cases hret : Returns delegation dust c v
      · obtain ⟨g1, g2⟩ := hb.back hret
        exact ⟨fun p hp => ((g2 p).1 hp).1, fun _ => hret.1⟩
      · by_cases hban : v.banished = true
        · obtain ⟨g1, g2⟩ := hb.out hban hret
          exact ⟨fun p hp => by rw [← g2, hp], fun _ => hban⟩
        · obtain ⟨g1, g2⟩ := hb.never (by simpa using hban)
          have : v'.banished = v.banished := (congrArg Info.banished g1 :)
          exact ⟨fun p hp => by rw [← g2, hp], fun e => by rw [← this, e]⟩
    · obtain ⟨w, h1, h2, h3⟩ := hm.todo c v ho hd
      rw [h] at h1
      cases h1
      have : v'.banished = v.banished := (congrArg Info.banished h2 :)
      exact ⟨fun p hp => by rw [← h3, hp], fun e => by rw [← this, e]⟩

theorem readmitting_line {o m : KV Nat Info} {delegation : Key → Option Int} {dust now month : Int} {D : Key → Prop} (hm : Readmitting o delegation dust now month D m) :
    ∀ (n : Nat) (c k : Key), up (refOf m) n c = some k → up (refOf o) n c = some k := by
  intro n
  induction n with
  | zero => intro c k h; exact h
  | succ n ih =>
    intro c k h
    obtain ⟨d, h1, h2⟩ := Option.bind_eq_some_iff.1 h
    obtain ⟨v', g1, g2⟩ := refOf_get h2
    obtain ⟨v, g3, g4, -⟩ := readmitting_get hm g1
    show (up (refOf o) n c).bind (refOf o) = _
    rw [ih c d h1, Option.bind_some, refOf_of g3, g4 k g2]

/-- Those below an account that is still to return are banished. -/
theorem still_alone {o m : KV Nat Info} {delegation : Key → Option Int} {dust now month : Int} {D : Key → Prop} {acc k : Key} {v : Info}
    (hDl : ∀ k v, o.get k = some v → (D k ↔ k < acc)) (hal : Alone o delegation dust) (hm : Readmitting o delegation dust now month D m)
    (hk : o.get k = some v) (hret : Returns delegation dust k v) (href : v.referrer ≠ none) (hkD : ¬ D k) :
    ∀ (n : Nat) (c : Key), up (refOf m) (n + 1) c = some k → (infoOf m c).banished = true := by
  intro n
  induction n with
  | zero =>
    intro c h
    have ho := readmitting_line hm _ _ _ h
    rw [up_succ] at h
    obtain ⟨p, h1, h2⟩ := Option.bind_eq_some_iff.1 h
    obtain ⟨u', g1, g2⟩ := refOf_get h1
    have hp : p = k := by injection h2
    subst hp
    obtain ⟨u, g3, g4, -⟩ := readmitting_get hm g1
    have hub := hal p v hk hret href c 0 u (by rw [ancestor_up]; exact ho) g3
    rw [infoOf_get g1]
    by_cases hd : D c
    · obtain ⟨w, e1, hb⟩ := hm.done c u g3 hd
      rw [g1] at e1
      cases e1
      by_cases hr : Returns delegation dust c u
      · exfalso
        have hop := (((hb.back hr).2 p).1 g2).2
        unfold OpenAt at hop
        rw [if_neg, infoOf_get hk, banished_closed hret.1 href] at hop
        · cases hop
        · rintro ⟨hlt, -⟩
          exact hkD ((hDl p v hk).2 (lt_trans hlt ((hDl c u g3).1 hd)))
      · have : u'.banished = ({ u with compressionAt := none } : Info).banished := (congrArg Info.banished (hb.out hub hr).1 :)
        rw [this]
        exact hub
    · obtain ⟨w, e1, e2, -⟩ := hm.todo c u g3 hd
      rw [g1] at e1
      cases e1
      have : u'.banished = u.banished := (congrArg Info.banished e2 :)
      rw [this, hub]
  | succ n ih =>
    intro c h
    have ho := readmitting_line hm _ _ _ h
    rw [up_succ] at h
    obtain ⟨p, h1, h2⟩ := Option.bind_eq_some_iff.1 h
    obtain ⟨u', g1, g2⟩ := refOf_get h1
    obtain ⟨u, g3, g4, -⟩ := readmitting_get hm g1
    have hub := hal k v hk hret href c (n + 1) u (by rw [ancestor_up]; exact ho) g3
    have hpb := ih p h2
    have hpo := readmitting_line hm _ _ _ h2
    rw [up_succ] at h2 hpo
    obtain ⟨y, y1, -⟩ := Option.bind_eq_some_iff.1 h2
    obtain ⟨z', z1, z2⟩ := refOf_get y1
    obtain ⟨z, z3, z4, z5⟩ := readmitting_get hm z1
    rw [infoOf_get z1] at hpb
    rw [infoOf_get g1]
    by_cases hd : D c
    · obtain ⟨w, e1, hb⟩ := hm.done c u g3 hd
      rw [g1] at e1
      cases e1
      by_cases hr : Returns delegation dust c u
      · exfalso
        have hop := (((hb.back hr).2 p).1 g2).2
        unfold OpenAt at hop
        split at hop
        · rw [infoOf_get z1, banished_closed hpb (by rw [z2]; simp)] at hop
          cases hop
        · rw [infoOf_get z3, banished_closed (z5 hpb) (by rw [z4 y z2]; simp)] at hop
          cases hop
      · have : u'.banished = ({ u with compressionAt := none } : Info).banished := (congrArg Info.banished (hb.out hub hr).1 :)
        rw [this]
        exact hub
    · obtain ⟨w, e1, e2, -⟩ := hm.todo c u g3 hd
      rw [g1] at e1
      cases e1
      have : u'.banished = u.banished := (congrArg Info.banished e2 :)
      rw [this, hub]

theorem welcome_money {acc q : Key} {r : Info} {m m' : KV Nat Info} (h : welcome acc r (some q) m = some m') {w : What} (hw : w ≠ .active) {j : Nat} (hj : j ≤ 10)
    (k : Key) : worth m' w j k = worth m w j k + column (refOf m) (fun l => r.tot w l) q j k := by
  unfold welcome at h
  split at h
  · next hh =>
    have e2 := amend_money (f := fun v => { v with referrals := v.referrals ++ [acc] }) (fun _ => ⟨rfl, rfl⟩) h w j k
    rw [e2, column_zero (hollow_zero hh hw) _ _ hj]
    omega
  · have e2 := alongLine_money (sign := 1) (r := r) (fun l v hl => meet_private acc r hl v) (fun l v => by unfold meet; split <;> rfl) _ _ _ _ _ (le_refl 1) h k w j hw hj
    rw [e2, line_column]
    omega

theorem readmitOne_summed {o m m' : KV Nat Info} {delegation : Key → Option Int} {dust now month : Int} {D : Key → Prop} {acc : Key} {r : Info} {rank : Key → Nat}
    (hu : Upward o rank) (hDl : ∀ k v, o.get k = some v → (D k ↔ k < acc)) (hal : Alone o delegation dust) (hr : o.get acc = some r)
    (hm : Readmitting o delegation dust now month D m) (ht : ∀ w, w ≠ .active → Balanced o.keys.toFinset (refOf m) (worth m w))
    (h : readmitOne delegation dust now month acc m = some m') : ∀ w, w ≠ .active → Balanced o.keys.toFinset (refOf m') (worth m' w) := by
  have hD : ¬ D acc := fun h => lt_irrefl _ ((hDl acc r hr).1 h)
  obtain ⟨r1, e1, e2, e3⟩ := hm.todo acc r hr hD
  have eb : r1.banished = r.banished := (congrArg Info.banished e2 :)
  have hum := readmitting_upward hu hm
  have hS : ∀ {k : Key} {x : Info}, o.get k = some x → k ∈ o.keys.toFinset := fun hk => List.mem_toFinset.2 (KV.mem_keys.2 ⟨_, hk⟩)
  have hwithin : Within o.keys.toFinset (refOf m) := by
    intro c _ p hp
    obtain ⟨x, x1, x2⟩ := refOf_get hp
    obtain ⟨u, hu'⟩ := hum.known c x p x1 x2
    obtain ⟨y, hy, -⟩ := readmitting_get hm hu'
    exact hS hy
  unfold readmitOne at h
  rw [e1, Option.bind_some] at h
  split at h
  · cases h; exact ht
  · next hb =>
    have hb : r1.banished = true := by simpa using hb
    obtain ⟨d, hd, h⟩ := Option.bind_eq_some_iff.1 h
    split at h
    · next hlt =>
      have hret : Returns delegation dust acc r := ⟨by rw [← eb, hb], d, hd, hlt⟩
      obtain ⟨parent, hp, h⟩ := Option.bind_eq_some_iff.1 h
      intro w hw
      -- nothing of the account is counted so far
      have hzero : (∃ p, refOf m acc = some p) → ∀ l ≤ 10, worth m w l acc = 0 := by
        rintro ⟨p, hp⟩ l hl
        rw [refOf_of e1, e3] at hp
        rw [(balanced_iff hwithin).1 (ht w hw) acc (hS hr) l hl]
        apply Finset.sum_eq_zero
        intro c _
        split
        · next hup =>
          have hcb : (infoOf m c).banished = true := by
            cases l with
            | zero => unfold up at hup; cases hup; rw [infoOf_get e1, hb]
            | succ l => exact still_alone hDl hal hm hr hret (by rw [hp]; simp) hD l c hup
          unfold worth
          rw [if_pos ⟨rfl, hcb⟩]
        · rfl
      have hlevel : ∀ l, 1 ≤ l → worth m w l acc = r1.tot w l := by
        intro l hl
        unfold worth
        rw [infoOf_get e1, if_neg fun e => by omega]
      have hset : ∀ l c, worth (m.set acc { r1.readmitted with referrer := parent }) w l c = if c = acc then r1.tot w l else worth m w l c := by
        intro l c
        unfold worth
        rw [infoOf_set]
        by_cases hc : c = acc
        · rw [if_pos hc, if_pos hc, if_neg (by rintro ⟨-, e⟩; cases e)]
          rfl
        · rw [if_neg hc, if_neg hc]
      rcases homeFor_cases hp with hpar | hpar
      · subst hpar
        unfold welcome at h
        split at h
        · cases h
        · unfold alongLine at h
          cases h
          refine (ht w hw).leave (acc := acc) hzero ?_ (fun c hc => ?_) fun c _ l _ hlc => ?_
          · unfold refOf; rw [infoOf_set, if_pos rfl]
          · unfold refOf; rw [infoOf_set, if_neg hc]
          · rw [hset]
            by_cases hc : c = acc
            · rw [if_pos hc, hc, hlevel l (hlc.resolve_right fun e => e hc)]
            · rw [if_neg hc]
      · cases hq : r1.referrer with
        | none =>
          rw [hq] at hpar
          subst hpar
          unfold welcome at h
          split at h
          · cases h
          · unfold alongLine at h
            cases h
            refine (ht w hw).leave (acc := acc) hzero ?_ (fun c hc => ?_) fun c _ l _ hlc => ?_
            · unfold refOf; rw [infoOf_set, if_pos rfl]
            · unfold refOf; rw [infoOf_set, if_neg hc]
            · rw [hset]
              by_cases hc : c = acc
              · rw [if_pos hc, hc, hlevel l (hlc.resolve_right fun e => e hc)]
              · rw [if_neg hc]
        | some q =>
          rw [hq] at hpar
          subst hpar
          have hacc : refOf m acc = some q := by rw [refOf_of e1, hq]
          have hz := hzero ⟨q, hacc⟩
          have href : refOf (m.set acc { r1.readmitted with referrer := some q }) = refOf m := by
            funext c
            unfold refOf
            rw [infoOf_set]
            split
            · next hc => rw [hc, infoOf_get e1, hq]
            · rfl
          have hlk := welcome_linked h
          rw [hlk.ref, href]
          refine (ht w hw).enter hwithin (hS hr) (hwithin acc (hS hr) q hacc) hacc (x := fun l => r1.tot w l) (fun l h1 hl => ?_) fun c _ l hl => ?_
          · show r1.tot w l = 0
            rw [← hlevel l h1, hz l hl]
          · rw [welcome_money h hw hl c, href, hset]
            show _ + column (refOf m) (fun l => r1.tot w l) q l c = _
            by_cases hc : c = acc
            · rw [if_pos hc, if_pos hc, hc, hz l hl]
              omega
            · rw [if_neg hc, if_neg hc]
              omega
    · split at h
      · cases h
        intro w hw
        have hw1 : worth (m.set acc { r1 with compressionAt := none }) w = worth m w := by
          funext l c
          unfold worth
          rw [infoOf_set]
          split
          · next hc => rw [hc, infoOf_get e1]
          · rfl
        have hr1 : refOf (m.set acc { r1 with compressionAt := none }) = refOf m := by
          funext c
          unfold refOf
          rw [infoOf_set]
          split
          · next hc => rw [hc, infoOf_get e1]
          · rfl
        rw [hw1, hr1]
        exact ht w hw
      · cases h; exact ht

theorem readmitAll_summed {o : KV Nat Info} {delegation : Key → Option Int} {dust now month : Int} {rank : Key → Nat} (hu : Upward o rank) (hal : Alone o delegation dust) :
    ∀ (l d : List Key) (m m' : KV Nat Info), o.keys = d ++ l → Readmitting o delegation dust now month (· ∈ d) m →
      (∀ w, w ≠ .active → Balanced o.keys.toFinset (refOf m) (worth m w)) → readmitAll delegation dust now month l m = some m' →
      Readmitting o delegation dust now month (· ∈ o.keys) m' ∧ ∀ w, w ≠ .active → Balanced o.keys.toFinset (refOf m') (worth m' w) := by
  intro l
  induction l with
  | nil =>
    intro d m m' hd hm ht h
    unfold readmitAll at h
    cases h
    refine ⟨?_, ht⟩
    rw [hd, List.append_nil]
    exact hm
  | cons k l ih =>
    intro d m m' hd hm ht h
    unfold readmitAll at h
    obtain ⟨m1, h1, h2⟩ := Option.bind_eq_some_iff.1 h
    obtain ⟨hDl, r, hr⟩ := keys_split hd
    have s1 := readmitOne_step hDl hr hm h1
    have t1 := readmitOne_summed hu hDl hal hr hm ht h1
    have e' : (fun x => x ∈ d ∨ x = k) = (· ∈ d ++ [k]) := by funext x; simp
    rw [e'] at s1
    exact ih (d ++ [k]) m1 m' (by rw [hd]; simp) s1 t1 h2

/-- C90: if there are only banished accounts below those that return to a referrer, sums of money that were right before are right afterwards. -/
theorem C90_sums_partial (dust : Int) (s : State) (rank : Key → Nat) (hu : Upward s.store rank) (hal : Alone s.store s.delegation dust) (h : MoneyMatches s.store) :
    MoneyMatches (readmit dust s).store := by
  unfold readmit
  split
  · next m hm =>
    obtain ⟨h1, h2⟩ := readmitAll_summed hu hal s.store.keys [] s.store m rfl (readmitting_start _ _ _ _ _) ((moneyMatches_iff hu).1 h) hm
    refine (moneyMatches_iff (readmitting_upward hu h1)).2 fun w hw => ?_
    have : m.keys.toFinset = s.store.keys.toFinset := by
      ext k
      rw [List.mem_toFinset, List.mem_toFinset, KV.mem_keys, KV.mem_keys]
      constructor
      · rintro ⟨v, hv⟩
        obtain ⟨u, hu, -⟩ := readmitting_get h1 hv
        exact ⟨u, hu⟩
      · rintro ⟨v, hv⟩
        obtain ⟨u, hu, -⟩ := h1.done k v hv (KV.mem_keys.2 ⟨v, hv⟩)
        exact ⟨u, hu⟩
    rw [this]
    exact h2 w hw
  · exact h

/-- Where nobody present has a banished referrer, nobody present is below a banished account. -/
theorem alone_of_present {st : KV Nat Info} {delegation : Key → Option Int} {dust : Int}
    (h : ∀ k p r u, st.get k = some r → r.banished = false → r.referrer = some p → st.get p = some u → u.banished = false) : Alone st delegation dust := by
  intro k v hk hr _ c n u ha hc
  by_contra hb
  have hb : u.banished = false := by simpa using hb
  have key : ∀ n y, up (refOf st) n c = some y → ∀ z, st.get y = some z → z.banished = false := by
    intro n
    induction n with
    | zero => intro y hy z hz; unfold up at hy; cases hy; rw [hc] at hz; cases hz; exact hb
    | succ n ih =>
      intro y hy z hz
      obtain ⟨d, h1, h2⟩ := Option.bind_eq_some_iff.1 hy
      obtain ⟨w, h3, h4⟩ := refOf_get h2
      exact h d y w z h3 (ih d h1 w h3) h4 hz
  rw [ancestor_up] at ha
  have := key (n + 1) k ha v hk
  rw [hr.1] at this
  cases this

/-- C90 in version 2.3.2 (/repo/app/app.go:366-370), where the transfer of C89 comes first: under the conditions of C89 sums of money that were right are right after both. -/
theorem C90_version_partial (dust : Int) (s : State) (rank : Key → Nat) (hu : Upward s.store rank)
    (hb : ∀ k v, s.store.get k = some v → v.banished = true → v.referrer ≠ none) (htd : TopDown s.store) (h : MoneyMatches s.store) :
    Alone (rehome s).store (rehome s).delegation dust ∧ MoneyMatches (readmit dust (rehome s)).store := by
  obtain ⟨m, hm⟩ := C89_goes_through s rank hu hb
  have hal : Alone (rehome s).store (rehome s).delegation dust :=
    alone_of_present fun k p r u h1 h2 h3 h4 => C89_nobody_left s m hm hb k p r u h1 h2 h3 h4
  have hset := rehomeAll_settling hb s.store.entries s.store m (fun _ => False) s.store.sorted (fun e he => ⟨KV.mem_entries.1 he, id⟩) (settling_start _ _ _) hm
  have hup : Upward (rehome s).store rank := by
    have e : (rehome s).store = m := by unfold rehome; rw [hm]
    rw [e]
    exact settling_upward hu hset
  exact ⟨hal, C90_sums_partial dust (rehome s) rank hup hal (C89_sums_partial s rank hu hb htd h).1⟩

/-! ### Cases -/

def aloneB (st : KV Nat Info) (delegation : Key → Option Int) (dust : Int) (rank : Key → Nat) : Bool :=
  st.entries.all fun e => !returnsB delegation dust e.1 e.2 || e.2.referrer.isNone ||
    st.entries.all fun f => f.2.banished || (List.range (rank f.1)).all fun n => !decide (ancestor st f.1 n = some e.1)

theorem alone_of_check {st : KV Nat Info} {delegation : Key → Option Int} {dust : Int} {rank : Key → Nat} (hu : Upward st rank)
    (h : aloneB st delegation dust rank = true) : Alone st delegation dust := by
  intro k v hk hr href c n u ha hc
  have h1 := List.all_eq_true.1 h _ (KV.mem_entries.2 hk)
  rw [returns_iff.1 hr] at h1
  have hn : n < rank c := by
    rw [ancestor_up] at ha
    have := up_lower hu _ _ _ ha
    omega
  have hf : v.referrer.isNone = false := by
    cases hx : v.referrer with
    | none => exact absurd hx href
    | some => rfl
  simp only [hf, Bool.not_true, Bool.false_or, List.all_eq_true, Bool.or_eq_true, List.mem_range, Bool.not_eq_true', decide_eq_false_iff_not] at h1
  rcases h1 _ (KV.mem_entries.2 hc) with h2 | h2
  · exact h2
  · exact absurd ha (h2 n hn)

def sumsB (st : KV Nat Info) : Bool :=
  st.entries.all fun e => [What.coins, What.delegated].all fun w => (List.range 10).all fun i =>
    decide (e.2.tot w (i + 1) = ((below st e.1 (i + 1)).map fun c => (infoOf st c).tot w 0).sum)

theorem sums_of_check {st : KV Nat Info} (h : sumsB st = true) : MoneyMatches st := by
  intro a w L ha hw h1 hL
  unfold KV.has at ha
  obtain ⟨v, hv⟩ := Option.isSome_iff_exists.1 ha
  have := List.all_eq_true.1 h _ (KV.mem_entries.2 hv)
  have := List.all_eq_true.1 this w (by cases w <;> simp_all)
  have := List.all_eq_true.1 this (L - 1) (List.mem_range.2 (by omega))
  rw [decide_eq_true_eq, Nat.sub_add_cancel h1] at this
  rw [infoOf_get hv]
  exact this

/-- The premises hold for the store above: below account 4 there is only account 6, which is banished. -/
example : Alone exiled.store exiled.delegation 10 ∧ MoneyMatches exiled.store ∧ MoneyMatches (readmit 10 exiled).store :=
  have hu := (upward_of_check (st := exiled.store) (rank := id) (by decide +kernel)).1
  have ha := alone_of_check (delegation := exiled.delegation) (dust := 10) hu (by decide +kernel)
  have hs := sums_of_check (st := exiled.store) (by decide +kernel)
  ⟨ha, hs, C90_sums_partial 10 exiled id hu ha hs⟩

/-- Own coins are 50, all of them delegated, and there are 7 coins one level below. -/
def heldAt : What → Nat → Int
  | .coins, j => ([50, 7] : List Int).getD j 0
  | .delegated, j => ([50] : List Int).getD j 0
  | .active, _ => 0

/-- 2 above 4 (banished) above 6 -/
def countedRecords : List (Key × Info) :=
  [(2, { status := 1, tot := coinsAt [0, 0, 7] }),
   (4, { status := 1, banished := true, referrer := some 2, referrals := [6], tot := heldAt }),
   (6, { status := 1, referrer := some 4, tot := coinsAt [7] })]

def counted : State := { empty0 with store := storeOf countedRecords, purse := exiledPurse }

/-- C90 fails for sums of money when somebody present is below the readmitted account: their money was counted above all the time, and is counted again. -/
theorem C90_twice_violation : ∃ (dust : Int) (s : State) (rank : Key → Nat), Upward s.store rank ∧ Orderly s.store ∧ (∀ k, ∃ d, s.delegation k = some d) ∧
    TotalsMatch 10 s.store ∧ ¬ MoneyMatches (readmit dust s).store ∧ below (readmit dust s).store 2 2 = [6] ∧ (infoOf (readmit dust s).store 6).tot .coins 0 = 7 ∧
    (infoOf (readmit dust s).store 2).tot .coins 2 = 14 := by
  have hu := (upward_of_check (st := counted.store) (rank := id) (by decide +kernel)).1
  have e1 : below (readmit 10 counted).store 2 2 = [6] := by decide +kernel
  have e2 : (infoOf (readmit 10 counted).store 6).tot .coins 0 = 7 := by decide +kernel
  have e3 : (infoOf (readmit 10 counted).store 2).tot .coins 2 = 14 := by decide +kernel
  refine ⟨10, counted, id, hu, orderly_of_check (by decide +kernel), exiled_fits, totals_of_check hu (by decide +kernel), fun h => ?_, e1, e2, e3⟩
  have := h 2 .coins 2 (by decide +kernel) (by decide) (by decide) (by decide)
  rw [e1, e3, List.map_cons, List.map_nil, List.sum_cons, e2] at this
  cases this

end Verif.Referral
