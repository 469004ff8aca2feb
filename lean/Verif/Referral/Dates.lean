import Verif.Referral.Deadlines4

/-! Property C66: when accounts are compressed and banished. -/
namespace Verif.Referral
open Relation

/-- The two dates -/
def dates (v : Info) : Option Int × Option Int := (v.compressionAt, v.banishmentAt)

theorem dates_view (st : KV Nat Info) (k : Key) : dates (view st k) = dates (infoOf st k) := rfl

theorem dates_climb {check : Bool} {f : Nat → Key → Info → Act Info} {g : Nat → Info → Info}
    (hf : ∀ l k v s w t, f l k v s = (.ok w, t) → Quiet s t ∧ core w = g l (core v)) (hg : ∀ l v, dates (g l v) = dates v)
    {n l : Nat} {k : Option Key} {s t : State} (h : climb check f n l k s = (.ok (), t)) (j : Key) :
    dates (infoOf t.work j) = dates (infoOf s.work j) := by
  rw [← dates_view, ← dates_view, (climb_ok hf n l k s t h).2, climbV_all hg]

/-! ### Activity -/

theorem activateSelf_dates {k : Key} {value : Bool} {v w : Info} {p : Option Key} {s t : State} (h : activateSelf k value v s = (.ok (w, p), t)) :
    dates w = if value then (none, none) else (some (s.now + 60 * s.day), v.banishmentAt) := by
  have hper : s.compressionPeriod = 60 * s.day := by unfold State.compressionPeriod State.month; omega
  unfold activateSelf at h
  rw [M.get_bind_ok, M.bind_ok_iff] at h
  obtain ⟨w1, s2, h1, h⟩ := h
  simp at h
  obtain ⟨⟨rfl, -⟩, -⟩ := h
  unfold dates
  cases hb : v.banishmentAt with
  | some x =>
    rw [hb] at h1
    dsimp only at h1
    cases value with
    | true =>
      rw [if_pos rfl, M.bind_ok_iff] at h1
      obtain ⟨_, s3, -, h1⟩ := h1
      simp at h1
      rw [← h1.1]; rfl
    | false =>
      rw [if_neg (by simp)] at h1
      simp at h1
      rw [← h1.1, ← hper]
      show (_, v.banishmentAt) = _
      rw [hb]; rfl
  | none =>
    rw [hb] at h1
    simp at h1
    rw [← h1.1]
    cases value with
    | true => show (_, v.banishmentAt) = _; rw [hb]; rfl
    | false => rw [← hper]; show (_, v.banishmentAt) = _; rw [hb]; rfl

theorem activeBody_dates {k : Key} {value check : Bool} {s t : State} (h : activeBody k value check s = (.ok true, t)) :
    dates (infoOf t.work k) = if value then (none, none) else (some (s.now + 60 * s.day), (infoOf s.work k).banishmentAt) := by
  unfold activeBody at h
  rw [M.get_bind_ok] at h
  split at h
  · simp at h
  rw [M.bind_ok_iff] at h
  obtain ⟨p, s1, h1, h⟩ := h
  obtain ⟨w, s2, h2, hw⟩ := update_plain h1
  rw [M.bind_ok_iff] at h
  obtain ⟨_, s3, h3, h⟩ := h
  rw [M.bind_ok_iff] at h
  obtain ⟨_, s4, h4, h⟩ := h
  simp at h
  rw [← h, ((Still.ite (.request _) (.pure _)).of h4).work]
  rw [dates_climb (g := bump (people value) (relist value k)) (by
    intro l a v s' w t h
    simp at h
    obtain ⟨rfl, rfl⟩ := h
    refine ⟨.refl _, ?_⟩
    unfold bump relist
    split
    · cases value <;> rfl
    · rfl) (by
    intro l v
    unfold bump relist addActive dropActive
    split
    · cases value <;> rfl
    · rfl) h3 k]
  rw [hw, infoOf_set, if_pos rfl]
  exact activateSelf_dates h2

theorem setActive_dates {e : Env} {k : Key} {value check : Bool} {s t : State} (ha : (infoOf s.store k).active ≠ value)
    (h : setActive e k value check s = (.ok (), t)) :
    dates (infoOf t.store k) = if value then (none, none) else (some (s.now + 60 * s.day), (infoOf s.store k).banishmentAt) := by
  obtain ⟨b, t', h1, h2, h3⟩ := bunch_ok h
  cases b with
  | false =>
    rcases activeBody_ok h1 with ⟨-, -, hc⟩ | ⟨hc, -⟩
    · exact absurd hc ha
    · cases hc
  | true =>
    rw [h2 rfl]
    exact activeBody_dates (s := s.fresh) h1

/-! ### The property -/

/-- When a subscription ends, the account will be compressed 60 days later. -/
theorem C66_expire {e : Env} {k : Key} {s t : State} (ha : (infoOf s.store k).active = true) (h : setActive e k false true s = (.ok (), t)) :
    (infoOf t.store k).compressionAt = some (s.now + 60 * s.day) ∧ (infoOf t.store k).banishmentAt = (infoOf s.store k).banishmentAt := by
  have := setActive_dates (by rw [ha]; simp) h
  exact ⟨congrArg Prod.fst this, congrArg Prod.snd this⟩

/-- When a subscription is bought, neither compression nor banishment is in store. -/
theorem C66_subscribe {e : Env} {k : Key} {check : Bool} {s t : State} (ha : (infoOf s.store k).active = false)
    (h : setActive e k true check s = (.ok (), t)) : (infoOf t.store k).compressionAt = none ∧ (infoOf t.store k).banishmentAt = none := by
  have := setActive_dates (by rw [ha]; simp) h
  exact ⟨congrArg Prod.fst this, congrArg Prod.snd this⟩

theorem appendChild_dates {e : Env} {p c : Key} {skip : Bool} {s t : State} (h : appendChild e p c skip true s = (.ok (), t)) :
    dates (infoOf t.store c) = (some (s.now + 60 * s.day), none) ∧ (infoOf t.store c).active = false := by
  have hper : s.compressionPeriod = 60 * s.day := by unfold State.compressionPeriod State.month; omega
  unfold appendChild at h
  rw [M.get_bind_ok, M.errIf_bind_ok] at h
  obtain ⟨-, h⟩ := h
  obtain ⟨b, t', h1, h2, -⟩ := bunch_ok h
  obtain ⟨rfl, -, -, -, hv⟩ := appendBody_ok h1
  rw [h2 rfl]
  have key : ∀ {β : Type} (π : Info → β), (∀ d l v, π (bump d (addKid c) l v) = π v) → π (view t'.work c) = π (freshInfo s.fresh p c true) := by
    intro β π hπ
    rw [hv, climbV_all (hπ _), upd_self]
  constructor
  · rw [← dates_view, key dates (by intro d l v; unfold bump addKid; split <;> rfl)]
    show (some (s.now + s.compressionPeriod), none) = _
    rw [hper]
  · have := key Info.active (by intro d l v; unfold bump addKid; split <;> rfl)
    exact this

/-- Who registers without a subscription will be compressed 60 days later; who registers with one will not. -/
theorem C66_register {e : Env} {c p : Key} {active : Bool} {s t : State} (h : register e c p active s = (.ok (), t)) :
    (infoOf t.store c).compressionAt = (if active then none else some (s.now + 60 * s.day)) ∧ (infoOf t.store c).banishmentAt = none := by
  unfold register at h
  rw [M.bind_ok_iff] at h
  obtain ⟨_, s1, h1, h⟩ := h
  obtain ⟨d1, a1⟩ := appendChild_dates h1
  rw [M.get_bind_ok, M.bind_ok_iff] at h
  obtain ⟨_, s2, h2, h⟩ := h
  have e2 : s2.store = s1.store := request_quiet h2
  cases active with
  | true =>
    rw [if_pos rfl] at h
    have := setActive_dates (value := true) (by rw [e2, a1]; simp) h
    exact ⟨congrArg Prod.fst this, congrArg Prod.snd this⟩
  | false =>
    rw [if_neg (by simp)] at h
    simp at h
    rw [← h, e2]
    exact ⟨congrArg Prod.fst d1, congrArg Prod.snd d1⟩

theorem compressSelf_dates {k : Key} {v w old : Info} {s t : State} (h : compressSelf k v s = (.ok (w, old), t)) :
    dates w = (none, if v.tot .delegated 0 ≤ s.dust then some (s.now + 30 * s.day) else v.banishmentAt) := by
  unfold compressSelf at h
  rw [M.errIf_bind_ok] at h
  obtain ⟨-, h⟩ := h
  rw [M.bind_ok_iff] at h
  obtain ⟨_, s1, h1, h⟩ := h
  rw [M.bind_ok_iff] at h
  obtain ⟨w1, s2, h2, h⟩ := h
  have e2 := setStatus_result h2
  rw [M.bind_ok_iff] at h
  obtain ⟨_, s3, h3, h⟩ := h
  have q3 : Quiet s s3 := ((Still.addCall _ _).of h1).trans (((Still.setStatus _ _ _).of h2).trans ((Still.addCall _ _).of h3))
  rw [M.orPanic_bind_ok] at h
  obtain ⟨d, hd, h⟩ := h
  have hd : d = v.tot .delegated 0 := by
    unfold toInt64? at hd
    split at hd
    · injection hd with hd; exact hd.symm
    · cases hd
  rw [M.get_bind_ok, M.bind_ok_iff] at h
  obtain ⟨w2, s4, h4, h⟩ := h
  simp at h
  obtain ⟨⟨rfl, -⟩, -⟩ := h
  rw [hd, q3.dust] at h4
  split at h4
  · rename_i hle
    obtain ⟨rfl, -⟩ := scheduleBanishment_ok h4
    rw [if_pos hle, e2]
    unfold dates State.month
    rw [q3.now, q3.day]
  · rename_i hle
    simp at h4
    rw [if_neg hle, ← h4.1, e2]
    rfl

theorem compressBody_dates {k : Key} {s t : State} (h : compressBody k s = (.ok true, t)) :
    dates (infoOf t.work k) =
      (none, if (infoOf s.work k).tot .delegated 0 ≤ s.dust then some (s.now + 30 * s.day) else (infoOf s.work k).banishmentAt) := by
  unfold compressBody at h
  rw [M.bind_ok_iff] at h
  obtain ⟨old, s1, h1, h⟩ := h
  obtain ⟨w, s2, h2, hw⟩ := update_plain h1
  have hd := compressSelf_dates h2
  rw [M.bind_ok_iff] at h
  obtain ⟨_, s3, h3, h⟩ := h
  rw [M.bind_ok_iff] at h
  obtain ⟨_, s4, h4, h⟩ := h
  simp at h
  rw [← h, dates_climb (g := squeeze (core old)) (by
    intro l a v s' w t h
    rw [M.bind_ok_iff] at h
    obtain ⟨_, s'', h', h⟩ := h
    have := (Still.addCall _ _).of h'
    simp at h
    obtain ⟨rfl, rfl⟩ := h
    refine ⟨this, ?_⟩
    unfold squeeze
    split
    · rename_i e; subst e; rfl
    · rfl) (by
    intro l v
    unfold squeeze
    split <;> rfl) h4 k]
  obtain ⟨-, v3⟩ := redirect_forEach _ _ _ h3
  rw [← dates_view, v3]
  have : dates (redirect old.referrals old.referrer (view s1.work) k) = dates (view s1.work k) := by
    unfold redirect; split <;> rfl
  rw [this, dates_view, hw, infoOf_set, if_pos rfl]
  exact hd

/-- An account that is compressed will be banished 30 days later if it delegates dust only. -/
theorem C66_compress {e : Env} {k : Key} {s t : State} (h : compress e k s = (.ok (), t)) :
    (infoOf t.store k).compressionAt = none ∧
    ((infoOf s.store k).tot .delegated 0 ≤ s.dust → (infoOf t.store k).banishmentAt = some (s.now + 30 * s.day)) ∧
    (s.dust < (infoOf s.store k).tot .delegated 0 → (infoOf t.store k).banishmentAt = (infoOf s.store k).banishmentAt) := by
  obtain ⟨b, t', h1, h2, -⟩ := bunch_ok h
  obtain ⟨rfl, -⟩ := compressBody_ok h1
  rw [h2 rfl]
  have := compressBody_dates h1
  have e1 : (infoOf t'.work k).compressionAt = _ := congrArg Prod.fst this
  have e2 : (infoOf t'.work k).banishmentAt = _ := congrArg Prod.snd this
  refine ⟨e1, fun hd => ?_, fun hd => ?_⟩
  · rw [e2]
    exact if_pos hd
  · rw [e2]
    exact if_neg (Int.not_le.2 hd)

/-- The compression is not carried out before its date. -/
theorem C66_not_early {e : Env} {k : Key} {s : State} {d : Int} (h : (infoOf s.store k).compressionAt = some d) (hd : s.now < d) :
    step e (.compression k) s = s := by
  show (performCompression e k s).2 = s
  unfold performCompression
  rw [M.bind_ok (M.get_apply s), h]
  unfold notDue
  rw [if_pos (decide_eq_true hd)]
  rfl

/-- Banished are only accounts that are inactive and delegate dust only; then no date is in store. -/
theorem C66_banish {e : Env} {k : Key} {s t : State} (h : banish e k s = (.ok (), t)) :
    (infoOf s.store k).active = false ∧ (infoOf s.store k).tot .delegated 0 ≤ s.dust ∧ (infoOf s.store k).banished = false ∧
    (infoOf s.store k).referrer ≠ none ∧
    (infoOf t.store k).banished = true ∧ (infoOf t.store k).compressionAt = none ∧ (infoOf t.store k).banishmentAt = none := by
  unfold banish at h
  rw [M.bind_ok_iff] at h
  obtain ⟨_, s1, h1, h⟩ := h
  rw [M.errIf_ok_iff] at h
  obtain ⟨-, rfl⟩ := h
  obtain ⟨b, t', h2, h3, -⟩ := bunch_ok h1
  obtain ⟨rfl, p, hp, ha, hb, hd, hv⟩ := banishBody_ok h2
  have key : ∀ {β : Type} (π : Info → β), (∀ d l v, π (bump d (dropKid k) l v) = π v) →
      π (view t'.work k) = π { view s.fresh.work k with banished := true, compressionAt := none, banishmentAt := none } := by
    intro β π hπ
    rw [hv, climbV_all (hπ _), upd_self]
  rw [h3 rfl]
  refine ⟨ha, hd, hb, ?_, ?_, ?_, ?_⟩
  · have hp : (infoOf s.store k).referrer = some p := hp
    rw [hp]; simp
  · exact key Info.banished (by intro d l v; unfold bump dropKid; split <;> rfl)
  · exact key Info.compressionAt (by intro d l v; unfold bump dropKid; split <;> rfl)
  · exact key Info.banishmentAt (by intro d l v; unfold bump dropKid; split <;> rfl)

/-! ### Changes of delegation -/

/-- What the rules say about the date of banishment when the delegation of an account becomes `d`. -/
inductive Rule (v : Info) (now day dust d : Int) : Option Int → Bool → Prop
  /-- the delegation did not change -/
  | same : d = v.tot .delegated 0 → Rule v now day dust d v.banishmentAt v.banished
  /-- a subscriber -/
  | active : v.active = true → Rule v now day dust d v.banishmentAt v.banished
  /-- enough is delegated again -/
  | back : v.active = false → d ≠ v.tot .delegated 0 → dust < d → Rule v now day dust d none false
  /-- too little is delegated by an account that has been compressed -/
  | warn : v.active = false → d ≠ v.tot .delegated 0 → d ≤ dust → v.referrer ≠ none → v.banished = false → v.banishmentAt = none →
      (∀ t, v.compressionAt = some t → t < now) → Rule v now day dust d (some (now + 30 * day)) false
  /-- too little is delegated, but compression is still to come, or the date is set already, or there is nothing to lose -/
  | keep : v.active = false → d ≤ dust → (v.referrer = none ∨ v.banished = true ∨ v.banishmentAt ≠ none ∨
      ∃ t, v.compressionAt = some t ∧ now ≤ t) → Rule v now day dust d v.banishmentAt v.banished

theorem reviveDelegator_rule {k : Key} {v w : Info} {s t : State} (h : reviveDelegator k v s = (.ok w, t)) :
    w.banishmentAt = none ∧ w.banished = false ∧ w.compressionAt = v.compressionAt := by
  unfold reviveDelegator at h
  rw [M.bind_ok_iff] at h
  obtain ⟨v1, s1, h1, h⟩ := h
  have hv1 : v1 = { v with banishmentAt := none } := by
    cases hb : v.banishmentAt with
    | some x =>
      rw [hb] at h1
      dsimp only at h1
      rw [M.bind_ok_iff] at h1
      obtain ⟨_, s2, h2, h1⟩ := h1
      simp at h1
      exact h1.1.symm
    | none =>
      rw [hb] at h1
      simp at h1
      rw [← h1.1, ← hb]
  split at h
  · rw [M.get_bind_ok, M.orPanic_bind_ok] at h
    obtain ⟨p, hp, h⟩ := h
    rw [M.bind_ok_iff] at h
    obtain ⟨_, s2, h2, h⟩ := h
    simp at h
    rw [← h.1, hv1]
    exact ⟨rfl, rfl, rfl⟩
  · rename_i hb
    simp at h
    rw [← h.1, hv1]
    rw [hv1] at hb
    exact ⟨rfl, by simpa using hb, rfl⟩

theorem delegationChanged_rule {k : Key} {v w : Info} {d : Int} {s t : State} (hd : d ≠ v.tot .delegated 0)
    (h : delegationChanged k v d s = (.ok w, t)) :
    Rule v s.now s.day s.dust d w.banishmentAt w.banished ∧ w.compressionAt = v.compressionAt := by
  unfold delegationChanged at h
  rw [M.get_bind_ok] at h
  split at h
  · rename_i ha
    simp at h
    rw [← h.1]
    exact ⟨.active ha, rfl⟩
  · rename_i ha
    have ha : v.active = false := by simpa using ha
    rw [M.orPanic_bind_ok] at h
    obtain ⟨x, hx, h⟩ := h
    have hx : x = d := by
      unfold toInt64? at hx
      split at hx
      · injection hx with hx; exact hx.symm
      · cases hx
    subst hx
    split at h
    · rename_i hle
      split at h
      · rename_i hc
        obtain ⟨c1, c2, c3, c4⟩ := hc
        obtain ⟨rfl, -⟩ := scheduleBanishment_ok h
        refine ⟨?_, rfl⟩
        have : (some (s.now + s.month)) = some (s.now + 30 * s.day) := rfl
        show Rule v _ _ _ _ (some (s.now + s.month)) v.banished
        rw [this, c2]
        refine .warn ha hd hle (Option.isSome_iff_ne_none.1 c1) c2 (Option.isNone_iff_eq_none.1 c3) fun t ht => ?_
        rw [ht] at c4
        exact of_decide_eq_true c4
      · rename_i hc
        simp at h
        rw [← h.1]
        refine ⟨.keep ha hle ?_, rfl⟩
        by_contra hn
        simp only [not_or, not_exists, not_and, not_not] at hn
        obtain ⟨n1, n2, n3, n4⟩ := hn
        refine hc ⟨Option.isSome_iff_ne_none.2 n1, by simpa using n2, by rw [n3]; rfl, ?_⟩
        cases hca : v.compressionAt with
        | none => rfl
        | some t =>
          have := n4 t hca
          exact decide_eq_true (by omega)
    · rename_i hle
      obtain ⟨e1, e2, e3⟩ := reviveDelegator_rule h
      rw [e1, e2]
      exact ⟨.back ha hd (by omega), e3⟩

theorem balanceBody_rule {k : Key} {s t : State} (h : balanceBody k s = (.ok true, t)) :
    Rule (infoOf s.work k) s.now s.day s.dust (s.delegated k) (infoOf t.work k).banishmentAt (infoOf t.work k).banished ∧
    (infoOf t.work k).compressionAt = (infoOf s.work k).compressionAt := by
  unfold balanceBody at h
  rw [M.get_bind_ok] at h
  split at h
  · simp at h
  rw [M.bind_ok_iff] at h
  obtain ⟨⟨v', dc, dd⟩, s1, h1, h⟩ := h
  rw [M.bind_ok_iff] at h
  obtain ⟨_, s2, h2, h⟩ := h
  simp at h
  subst h
  obtain ⟨w, s3, h3, -, hv, -⟩ := update_ok h1
  have three : ∀ {v v' : Info}, (dates v, v.banished) = (dates v', v'.banished) → v.compressionAt = v'.compressionAt ∧
      v.banishmentAt = v'.banishmentAt ∧ v.banished = v'.banished := by
    intro v v' h
    unfold dates at h
    simp only [Prod.mk.injEq] at h
    exact ⟨h.1.1, h.1.2, h.2⟩
  have hcl : (dates (infoOf s2.work k), (infoOf s2.work k).banished) = (dates w, w.banished) := by
    have e1 : (dates (view s1.work k), (view s1.work k).banished) = (dates w, w.banished) := by
      rw [hv, upd_self]; rfl
    rw [← e1]
    dsimp only at h2
    split at h2
    · simp at h2; rw [← h2]; rfl
    · have hv2 := (climb_ok (g := fun l v => v.add (money dc dd) l) (by
        intro l a v s' w t h
        rw [M.bind_ok_iff] at h
        obtain ⟨_, s'', h', h⟩ := h
        have q := (Still.ite (.pure _) (.addCall _ _)).of h'
        simp at h
        obtain ⟨rfl, rfl⟩ := h
        exact ⟨q, rfl⟩) _ _ _ _ _ h2).2
      have := climbV_all (π := fun v => (dates v, v.banished)) (g := fun l v => v.add (money dc dd) l) (fun l v => rfl) 10 1 v'.referrer (view s1.work) k
      rw [← hv2] at this
      exact this
  obtain ⟨c1, c2, c3⟩ := three hcl
  rw [c1, c2, c3]
  unfold ownBalance at h3
  rw [M.get_bind_ok] at h3
  rw [M.bind_ok_iff] at h3
  obtain ⟨v1, s4, h4, h3⟩ := h3
  simp at h3
  obtain ⟨⟨rfl, -⟩, rfl⟩ := h3
  split at h4
  · rename_i hz
    simp at h4
    rw [← h4.1]
    exact ⟨.same (by omega), rfl⟩
  · rename_i hz
    rw [M.bind_ok_iff] at h4
    obtain ⟨_, s5, h5, h4⟩ := h4
    have q5 := (Still.addCall _ _).of h5
    have := delegationChanged_rule (by omega) h4
    rw [q5.now, q5.day, q5.dust] at this
    exact this

/-- What a change of balance does to the date of banishment and to the banishment. -/
theorem C66_balance {e : Env} {a : Addr} {p : Purse} {s t : State} (hk : (infoOf s.store (text a)).isEmpty = false)
    (h : setPurse e a p s = (.ok (), t)) :
    Rule (infoOf s.store (text a)) s.now s.day s.dust p.delegated (infoOf t.store (text a)).banishmentAt (infoOf t.store (text a)).banished ∧
    (infoOf t.store (text a)).compressionAt = (infoOf s.store (text a)).compressionAt := by
  unfold setPurse at h
  rw [M.modify_bind_ok] at h
  obtain ⟨b, t', h1, h2, -⟩ := bunch_ok h
  cases b with
  | false =>
    exfalso
    unfold balanceBody at h1
    rw [M.get_bind_ok, if_neg] at h1
    · rw [M.bind_ok_iff] at h1
      obtain ⟨_, _, -, h1⟩ := h1
      rw [M.bind_ok_iff] at h1
      obtain ⟨_, _, -, h1⟩ := h1
      simp at h1
    · show ¬ (infoOf s.store (text a)).isEmpty = true
      rw [hk]; simp
  | true =>
    rw [h2 rfl]
    have := balanceBody_rule h1
    have hd : State.delegated (State.fresh { s with purse := fun b => if b = a then p else s.purse b }) (text a) = p.delegated := by
      have : addrOf (text a) = a := Nat.mul_div_cancel_left a (by decide)
      show ((if addrOf (text a) = a then p else s.purse (addrOf (text a))).delegated) = _
      rw [this, if_pos rfl]
    rw [hd] at this
    exact this

/-! ### Examples -/

/-- The life of account 4: 60 days after its subscription ended it is compressed, 30 days later banished. -/
example : (infoOf (live (life.take 5) empty0).store 4).compressionAt = some (100 + 60 * 86400) ∧
    (infoOf (live (life.take 7) empty0).store 4).banishmentAt = some (5184100 + 30 * 86400) ∧
    (infoOf (live (life ++ [.block 7776100, .op yes (.banish 4)]) empty0).store 4).banished = true := by decide +kernel

/-- It delegates after the compression and is safe; it withdraws, and the month begins anew. -/
example : (infoOf (live (life ++ [.op yes (.balance 2 { delegated := 5 })]) empty0).store 4).banishmentAt = none ∧
    (infoOf (live (life ++ [.op yes (.balance 2 { delegated := 5 }), .op yes (.balance 2 { main := 5 })]) empty0).store 4).banishmentAt =
      some (5184300 + 30 * 86400) := by decide +kernel

end Verif.Referral
