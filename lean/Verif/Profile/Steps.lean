import Verif.Profile.Lemmas

namespace Verif.Profile
open Verif.Util Verif.Bank
open Verif.Schedule (Pending)

/-! ### A successful `setProfile` -/

theorem when_ok {c : Bool} {m : M State Unit} {s t : State} {u : Unit} (h : when c m s = (.ok u, t)) :
    (c = true ∧ m s = (.ok u, t)) ∨ (c = false ∧ t = s) := by
  unfold when at h
  cases c with
  | true => left; exact ⟨rfl, by simpa using h⟩
  | false =>
    right
    simp only [Bool.false_eq_true, if_false, M.pure_apply, Prod.mk.injEq] at h
    exact ⟨rfl, h.2.symm⟩

/-- The alias store after the nickname part. -/
theorem updateAlias_ok {e : Env} {a : Addr} {old : Option Profile} {raw : Text} {s t : State} {u : Unit}
    (h : updateAlias e a old raw s = (.ok u, t)) :
    ∃ A, Same { s with aliases := A } t ∧
      ((∃ o, old = some o ∧ o.nickname = raw ∧ A = s.aliases ∧ t.bank = s.bank) ∨
       ((∃ o, old = some o ∧ o.nickname ≠ raw) ∨ old = none) ∧
        ∀ k, A.get k = if e.text.trim raw ≠ [] ∧ k = e.text.lower (e.text.trim raw) then some a else
          if ∃ o, old = some o ∧ o.nickname ≠ [] ∧ k = e.text.lower o.nickname then none else s.aliases.get k) := by
  unfold updateAlias at h
  cases old with
  | none =>
    dsimp only at h
    rcases when_ok h with ⟨hc, h⟩ | ⟨hc, rfl⟩
    · have hc' : e.text.trim raw ≠ [] := by simpa using hc
      simp only [setAlias, M.modify_apply, Prod.mk.injEq] at h
      obtain ⟨-, rfl⟩ := h
      refine ⟨_, Same.refl _, Or.inr ⟨Or.inr rfl, fun k => ?_⟩⟩
      rw [KV.get_set]
      simp [hc']
    · have hc' : e.text.trim raw = [] := by simpa using hc
      refine ⟨t.aliases, Same.refl _, Or.inr ⟨Or.inr rfl, fun k => ?_⟩⟩
      simp [hc']
  | some o =>
    dsimp only at h
    split at h
    · next hne =>
      rw [M.bind_ok_iff] at h
      obtain ⟨u1, s1, h1, h2⟩ := h
      have hs1 : s1 = { s with aliases := if o.nickname ≠ [] then s.aliases.erase (e.text.lower o.nickname) else s.aliases } := by
        rcases when_ok h1 with ⟨hc, h1⟩ | ⟨hc, rfl⟩
        · have hc' : o.nickname ≠ [] := by simpa using hc
          simp only [removeAlias, M.modify_apply, Prod.mk.injEq] at h1
          rw [if_pos hc']; exact h1.2.symm
        · have hc' : ¬ o.nickname ≠ [] := by simpa using hc
          rw [if_neg hc']
      have hg : ∀ k, s1.aliases.get k = if ∃ o', some o = some o' ∧ o'.nickname ≠ [] ∧ k = e.text.lower o'.nickname then none
          else s.aliases.get k := by
        intro k
        rw [hs1]
        by_cases hn : o.nickname = []
        · simp [hn]
        · simp only [ne_eq, hn, not_false_eq_true, if_true, KV.get_erase]
          by_cases hk : k = e.text.lower o.nickname <;> simp [hk, hn]
      rcases when_ok h2 with ⟨hc, h2⟩ | ⟨hc, rfl⟩
      · have hc' : e.text.trim raw ≠ [] := by simpa using hc
        rw [M.bind_ok_iff] at h2
        obtain ⟨u2, s2, h2, h3⟩ := h2
        have q := chargeFee_quiet e a 1000000 s1
        rw [h2] at q
        simp only [setAlias, M.modify_apply, Prod.mk.injEq] at h3
        obtain ⟨-, rfl⟩ := h3
        refine ⟨s1.aliases.set (e.text.lower (e.text.trim raw)) a, ?_, Or.inr ⟨Or.inl ⟨o, rfl, hne⟩, fun k => ?_⟩⟩
        · refine ⟨q.profiles.trans ?_, ?_, q.cards.trans ?_, q.accounts.trans ?_, q.nextAcc.trans ?_, q.params.trans ?_, q.now.trans ?_, ?_⟩
          any_goals (rw [hs1])
          · rw [← hs1]; exact congrArg (fun A : KV Text Addr => A.set _ a) q.aliases
          · intro x hx hp
            refine q.pend x hx ?_
            rw [hs1]; exact hp
        · rw [KV.get_set, hg]
          simp [hc']
      · have hc' : e.text.trim raw = [] := by simpa using hc
        refine ⟨t.aliases, ?_, Or.inr ⟨Or.inl ⟨o, rfl, hne⟩, fun k => ?_⟩⟩
        · rw [hs1]; exact Same.refl _
        · rw [hg]; simp [hc']
    · next hne =>
      simp only [M.pure_apply, Prod.mk.injEq] at h
      obtain ⟨-, rfl⟩ := h
      exact ⟨s.aliases, Same.refl _, Or.inl ⟨o, rfl, by simpa using hne, rfl, rfl⟩⟩

/-- The card store after the card part: nothing changes for an existing profile. -/
theorem updateCard_ok {a : Addr} {old : Option Profile} {c c' : Nat} {s t : State} (h : updateCard a old c s = (.ok c', t))
    (ho : ∀ o, old = some o → c = o.cardNumber) :
    c' = c ∧ t = { s with cards := if old = none ∧ c ≠ 0 then s.cards.set c a else s.cards } := by
  cases old with
  | some o =>
    have hc := ho o rfl
    unfold updateCard at h
    dsimp only at h
    split at h
    · rw [M.bind_ok_iff] at h
      obtain ⟨u, s1, h1, h2⟩ := h
      simp only [M.pure_apply, Prod.mk.injEq, Res.ok.injEq] at h2
      rcases when_ok h1 with ⟨hcc, -⟩ | ⟨-, rfl⟩
      · simp [hc] at hcc
      · exact ⟨h2.1.symm, by simpa using h2.2.symm⟩
    · simp only [M.pure_apply, Prod.mk.injEq, Res.ok.injEq] at h
      exact ⟨by rw [hc]; exact h.1.symm, by simpa using h.2.symm⟩
  | none =>
    unfold updateCard at h
    dsimp only at h
    rw [M.bind_ok_iff] at h
    obtain ⟨u, s1, h1, h2⟩ := h
    simp only [M.pure_apply, Prod.mk.injEq, Res.ok.injEq] at h2
    rcases when_ok h1 with ⟨hcc, h1⟩ | ⟨hcc, rfl⟩
    · simp only [setCard, M.modify_apply, Prod.mk.injEq] at h1
      have : c ≠ 0 := by simpa using hcc
      exact ⟨h2.1.symm, by rw [← h2.2, ← h1.2]; simp [this]⟩
    · have : c = 0 := by simpa using hcc
      exact ⟨h2.1.symm, by rw [← h2.2]; simp [this]⟩

/-- The parts of a successful `setProfile`. -/
theorem setProfile_ok {e : Env} {a : Addr} {p : Profile} {s t : State} {u : Unit} (h : setProfile e a p s = (.ok u, t))
    (ha : s.accounts.has a = true) (ho : ∀ o, s.profiles.get a = some o → p.cardNumber = o.cardNumber) :
    ∃ A, nicknameOk e s a (e.text.trim p.nickname) = true ∧
      Same { s with profiles := s.profiles.set a p, aliases := A,
                    cards := if s.profiles.get a = none ∧ p.cardNumber ≠ 0 then s.cards.set p.cardNumber a else s.cards } t ∧
      ((∃ o, s.profiles.get a = some o ∧ o.nickname = p.nickname ∧ A = s.aliases ∧ t.bank = s.bank) ∨
       ((∃ o, s.profiles.get a = some o ∧ o.nickname ≠ p.nickname) ∨ s.profiles.get a = none) ∧
        ∀ k, A.get k = if e.text.trim p.nickname ≠ [] ∧ k = e.text.lower (e.text.trim p.nickname) then some a else
          if ∃ o, s.profiles.get a = some o ∧ o.nickname ≠ [] ∧ k = e.text.lower o.nickname then none else s.aliases.get k) := by
  unfold setProfile at h
  rw [M.get_bind_ok, M.errIf_bind_ok] at h
  obtain ⟨h0, h⟩ := h
  rw [M.bind_ok_iff] at h
  obtain ⟨u1, s1, h1, h⟩ := h
  obtain ⟨A, q1, hA⟩ := updateAlias_ok h1
  rw [M.bind_ok_iff] at h
  obtain ⟨c, s2, h2, h⟩ := h
  obtain ⟨rfl, hs2⟩ := updateCard_ok h2 ho
  have h3 : storeProfile a { p with cardNumber := p.cardNumber } s2 = (.ok (), { s2 with profiles := s2.profiles.set a p }) := rfl
  rw [M.bind_ok h3] at h
  have hb : s2.accounts.has a = true := by rw [hs2]; show s1.accounts.has a = true; rw [q1.accounts]; exact ha
  rw [M.bind_ok (ensureAccount_has (s := { s2 with profiles := s2.profiles.set a p }) hb)] at h
  have q3 := tellReferral_quiet e a (s.profiles.get a) p { s2 with profiles := s2.profiles.set a p }
  have hbank : t.bank = s2.bank := by
    have : (tellReferral e a (s.profiles.get a) p { s2 with profiles := s2.profiles.set a p }).2.bank = s2.bank := by
      unfold tellReferral
      rw [M.bind_ok (M.get_apply _)]
      split <;> rfl
    rw [h] at this; exact this
  rw [h] at q3
  refine ⟨A, by simpa using h0, ?_, ?_⟩
  · refine ⟨q3.profiles.trans ?_, q3.aliases.trans ?_, q3.cards.trans ?_, q3.accounts.trans ?_, q3.nextAcc.trans ?_, q3.params.trans ?_, q3.now.trans ?_, ?_⟩
    · rw [hs2]; show s1.profiles.set a p = _; rw [q1.profiles]
    · rw [hs2]; exact q1.aliases
    · rw [hs2]; show (if s.profiles.get a = none ∧ p.cardNumber ≠ 0 then s1.cards.set p.cardNumber a else s1.cards) = _
      rw [q1.cards]
    · rw [hs2]; exact q1.accounts
    · rw [hs2]; exact q1.nextAcc
    · rw [hs2]; exact q1.params
    · rw [hs2]; exact q1.now
    · intro x hx hp
      refine q3.pend x hx ?_
      rw [hs2]; exact q1.pend x hx hp
  · rcases hA with ⟨o, g1, g2, g3, g4⟩ | g
    · exact Or.inl ⟨o, g1, g2, g3, by rw [hbank, hs2]; exact g4⟩
    · exact Or.inr g

theorem nicknameOk_iff {e : Env} {s : State} {a : Addr} {n : Text} (h : nicknameOk e s a n = true) (hn : n ≠ []) :
    e.text.reserved n = false ∧ ∀ b, s.aliases.get (e.text.lower n) = some b → b = a := by
  unfold nicknameOk byNickname at h
  simp only [Bool.or_eq_true, decide_eq_true_eq, hn, false_or, Bool.and_eq_true, Bool.not_eq_true'] at h
  refine ⟨h.1, fun b hb => ?_⟩
  have := h.2
  rw [hb] at this
  simpa using this

theorem setProfile_ok_ids {T : TextOps} (hT : TextOk T) {e : Env} (he : e.text = T) {a : Addr} {p : Profile} {s t : State} {u : Unit}
    (h : setProfile e a p s = (.ok u, t)) (hi : Ids T s) {n : Nat} (ha : s.accounts.get a = some n)
    (ho : p.cardNumber = n ^^^ s.params.cardMagic) : Ids T t := by
  subst he
  have ho' : ∀ o, s.profiles.get a = some o → p.cardNumber = o.cardNumber := by
    intro o hoo
    obtain ⟨m, g1, g2, -⟩ := hi.cards a o hoo
    rw [ha] at g1; injection g1 with g1
    rw [ho, g2, g1]
  obtain ⟨A, h1, h2, h3⟩ := setProfile_ok h (has_of_get ha) ho'
  refine h2.ids ⟨?_, ⟨hi.accs.lt, hi.accs.inj⟩, ?_⟩
  · -- nicknames
    intro b q hq hne
    simp only [KV.get_set] at hq
    show A.get _ = some b
    split at hq
    · next hb =>
      injection hq with hq; subst hq hb
      rcases h3 with ⟨o, g1, g2, g3, -⟩ | ⟨-, g⟩
      · rw [g3, ← g2]; rw [← g2] at hne; exact hi.nicks _ _ g1 hne
      · rw [g, if_pos ⟨hne, rfl⟩]
    · next hb =>
      have hk := hi.nicks b q hq hne
      rcases h3 with ⟨o, g1, g2, g3, -⟩ | ⟨-, g⟩
      · rw [g3]; exact hk
      · rw [g]
        rw [if_neg, if_neg]
        · exact hk
        · rintro ⟨o, o1, o2, o3⟩
          have e1 : e.text.trim (e.text.lower (e.text.trim q.nickname)) = e.text.lower (e.text.trim q.nickname) := by
            rw [← hT.lower_trim, hT.trim_trim]
          have e2 : e.text.lower (e.text.trim o.nickname) = e.text.lower (e.text.trim q.nickname) := by
            rw [hT.lower_trim, ← o3, e1]
          by_cases ht : e.text.trim o.nickname = []
          · rw [ht] at e2
            have : e.text.lower ([] : Text) = [] := (hT.lower_nil []).2 rfl
            rw [this] at e2
            exact hne ((hT.lower_nil _).1 e2.symm)
          · have := hi.nicks a o o1 ht
            rw [e2, hk] at this
            injection this with this; exact hb this
        · rintro ⟨g1, g2⟩
          have := (nicknameOk_iff h1 g1).2 b (by rw [← g2]; exact hk)
          exact hb this
  · -- cards
    intro b q hq
    simp only [KV.get_set] at hq
    show ∃ m, s.accounts.get b = some m ∧ q.cardNumber = m ^^^ s.params.cardMagic ∧ (q.cardNumber ≠ 0 →
      (if s.profiles.get a = none ∧ p.cardNumber ≠ 0 then s.cards.set p.cardNumber a else s.cards).get q.cardNumber = some b)
    split at hq
    · next hb =>
      injection hq with hq; subst hq hb
      refine ⟨n, ha, ho, fun hc => ?_⟩
      rcases hold : s.profiles.get b with _ | o
      · rw [if_pos ⟨rfl, hc⟩, KV.get_set_self]
      · rw [if_neg (by simp)]
        obtain ⟨m, -, -, g3⟩ := hi.cards b o hold
        rw [ho' o hold] at hc ⊢
        exact g3 hc
    · next hb =>
      obtain ⟨m, g1, g2, g3⟩ := hi.cards b q hq
      refine ⟨m, g1, g2, fun hc => ?_⟩
      split
      · rw [KV.get_set, if_neg]
        · exact g3 hc
        · intro hcc
          rw [g2, ho] at hcc
          have : m = n := by
            have := congrArg (· ^^^ s.params.cardMagic) hcc
            simpa [Nat.xor_assoc] using this
          subst this
          exact hb (hi.accs.inj _ _ _ g1 ha)
      · exact g3 hc

/-! ### The operations keep `Ids` and `Renew` -/

/-- The computation, started with profile `o` of `a` on record, keeps the invariants, however it ends. -/
def Keeps (T : TextOps) (a : Addr) (o : Profile) {α : Type} (m : M State α) : Prop :=
  ∀ s, s.profiles.get a = some o → (Ids T s → Ids T (m s).2) ∧ (Renew s → Renew (m s).2)

theorem Keeps.bind {T : TextOps} {a : Addr} {o : Profile} {α β : Type} {m : M State α} {f : α → M State β} (hm : Quiet m)
    (hf : ∀ x, Keeps T a o (f x)) : Keeps T a o (m >>= f) := by
  intro s hs
  have q := hm s
  rw [M.bind_apply]
  rcases h : m s with ⟨r, s'⟩
  rw [h] at q
  cases r with
  | ok x =>
    have hs' : s'.profiles.get a = some o := by rw [q.profiles]; exact hs
    exact ⟨fun hi => (hf x s' hs').1 (q.ids hi), fun hi => (hf x s' hs').2 (q.renew hi)⟩
  | err => exact ⟨fun hi => q.ids hi, fun hi => q.renew hi⟩
  | panic => exact ⟨fun hi => q.ids hi, fun hi => q.renew hi⟩

theorem Keeps.quiet {T : TextOps} {a : Addr} {o : Profile} {α : Type} {m : M State α} (h : Quiet m) : Keeps T a o m :=
  fun s _ => ⟨(h s).ids, (h s).renew⟩

theorem Keeps.set {T : TextOps} (e : Env) {a : Addr} {o p : Profile} (hn : p.nickname = o.nickname) (hc : p.cardNumber = o.cardNumber)
    (hu : p.activeUntil = o.activeUntil) : Keeps T a o (setProfile e a p) := by
  intro s hs
  refine ⟨fun hi => setProfile_same_ids e a hi hs hn hc, fun hr => setProfile_renew e a hr fun u h1 h2 => hr a o u hs (hu ▸ h1) h2⟩

/-- An operation that reads the profile first. -/
theorem Keeps.read {T : TextOps} {a : Addr} {β : Type} {f : Profile → M State β} (s : State)
    (h : ∀ o, s.profiles.get a = some o → Keeps T a o (f o)) :
    (Ids T s → Ids T ((M.orPanic (s.profiles.get a) >>= f) s).2) ∧ (Renew s → Renew ((M.orPanic (s.profiles.get a) >>= f) s).2) := by
  rcases hs : s.profiles.get a with _ | o
  · exact ⟨fun hi => hi, fun hi => hi⟩
  · exact h o hs s hs

theorem resetLimits_id (p : Params) (o : Profile) : (resetLimits p o).nickname = o.nickname ∧ (resetLimits p o).cardNumber = o.cardNumber ∧
    (resetLimits p o).activeUntil = o.activeUntil := by
  unfold resetLimits
  dsimp only
  exact ⟨Eq.refl _, Eq.refl _, Eq.refl _⟩

/-- The invariants survive the computation, however it ends. -/
def Pres {α : Type} (T : TextOps) (m : M State α) : Prop := ∀ s, (Ids T s → Ids T (m s).2) ∧ (Renew s → Renew (m s).2)

theorem Pres.errIf {T : TextOps} {β : Type} {c : Bool} {f : Unit → M State β} (h : Pres T (f ())) : Pres T (M.errIf c >>= f) := by
  intro s
  cases c
  · exact h s
  · exact ⟨fun hi => hi, fun hi => hi⟩

/-- `get`, then read the profile of `a`, then go on. -/
theorem Pres.read {T : TextOps} {a : Addr} {β : Type} {f : State → Profile → M State β}
    (h : ∀ s o, Keeps T a o (f s o)) : Pres T (M.get >>= fun s => M.orPanic (s.profiles.get a) >>= f s) :=
  fun s => Keeps.read (f := f s) s fun o _ => h s o

theorem buyStorage_pres (T : TextOps) (e : Env) (a : Addr) (g : Nat) : Pres T (buyStorage e a g) :=
  .errIf <| .read fun _ _ => .bind (.errIf _) fun _ => .bind (.orPanic _) fun _ => .bind (.orPanic _) fun _ =>
    .bind (.panicIf _) fun _ => .bind (paySplit_quiet _ _ _) fun _ => .set e rfl rfl rfl

theorem buyVpn_pres (T : TextOps) (e : Env) (a : Addr) (g : Nat) : Pres T (buyVpn e a g) :=
  .errIf <| .read fun _ _ => .bind (.errIf _) fun _ => .bind (.orPanic _) fun _ => .bind (.orPanic _) fun _ =>
    .bind (paySplit_quiet _ _ _) fun _ => .set e rfl rfl rfl

theorem buyIm_pres (T : TextOps) (e : Env) (a : Addr) (g : Nat) : Pres T (buyIm e a g) := by
  refine .errIf <| .read fun s o => .bind (.orPanic _) fun _ => .bind (.orPanic _) fun _ =>
    .bind (.panicIf _) fun _ => .bind (paySplit_quiet _ _ _) fun _ => ?_
  split
  · exact .set e rfl rfl rfl
  · exact .bind (schedule_quiet _ _ _) fun _ => .set e rfl rfl rfl

theorem giveStorageUp_pres (T : TextOps) (e : Env) (a : Addr) (g : Nat) : Pres T (giveStorageUp e a g) :=
  .errIf <| .read fun _ _ => .bind (.errIf _) fun _ => .bind (.errIf _) fun _ => .set e rfl rfl rfl

theorem giveImUp_pres (T : TextOps) (e : Env) (a : Addr) (g : Nat) : Pres T (giveImUp e a g) := by
  refine .read fun s o => .bind (.errIf _) fun _ => ?_
  split
  · exact .bind (deleteIm_quiet _ _) fun _ => .set e rfl rfl rfl
  · exact .set e rfl rfl rfl

theorem prolong_profile {e : Env} {a : Addr} {o p : Profile} {s t : State} (h : prolong e a o s = (.ok p, t)) :
    p.nickname = o.nickname ∧ p.cardNumber = o.cardNumber ∧ p.activeUntil = o.activeUntil := by
  unfold prolong at h
  simp only [M.bind_ok_iff] at h
  obtain ⟨_, _, _, _, _, _, _, _, _, _, _, _, _, _, _, _, _, _, _, _, _, _, _, _, h⟩ := h
  simp only [M.pure_apply, Prod.mk.injEq, Res.ok.injEq] at h
  rw [← h.1]; exact ⟨rfl, rfl, rfl⟩

/-- As `Keeps.bind`, knowing the result. -/
theorem Keeps.bind' {T : TextOps} {a : Addr} {o : Profile} {α β : Type} {m : M State α} {f : α → M State β} (hm : Quiet m)
    (hf : ∀ x, (∃ s t, m s = (.ok x, t)) → Keeps T a o (f x)) : Keeps T a o (m >>= f) := by
  intro s hs
  have q := hm s
  rw [M.bind_apply]
  rcases h : m s with ⟨r, s'⟩
  rw [h] at q
  cases r with
  | ok x =>
    have hs' : s'.profiles.get a = some o := by rw [q.profiles]; exact hs
    exact ⟨fun hi => (hf x ⟨s, s', h⟩ s' hs').1 (q.ids hi), fun hi => (hf x ⟨s, s', h⟩ s' hs').2 (q.renew hi)⟩
  | err => exact ⟨fun hi => q.ids hi, fun hi => q.renew hi⟩
  | panic => exact ⟨fun hi => q.ids hi, fun hi => q.renew hi⟩

theorem prolongIm_pres (T : TextOps) (e : Env) (a : Addr) : Pres T (prolongIm e a) := by
  refine .read fun _ o => .bind' (prolong_quiet _ _ _) fun p hp => ?_
  obtain ⟨s, t, h⟩ := hp
  obtain ⟨h1, h2, h3⟩ := prolong_profile h
  exact .set e h1 h2 h3

theorem monthlyIm_pres (T : TextOps) (e : Env) (a : Addr) : Pres T (monthlyIm e a) := by
  refine .read fun _ o => .bind' (.onErr ?_ (.pure _)) fun p hp => ?_
  · split
    · exact prolong_quiet _ _ _
    · exact .err
  · obtain ⟨s, t, h⟩ := hp
    unfold onErr at h
    rcases hh : (if o.autoPayImExtra then prolong e a o else M.err) s with ⟨r, s'⟩
    rw [hh] at h
    cases r with
    | ok x =>
      simp only [Prod.mk.injEq, Res.ok.injEq] at h
      obtain ⟨rfl, rfl⟩ := h
      split at hh
      · obtain ⟨h1, h2, h3⟩ := prolong_profile hh
        exact .set e h1 h2 h3
      · simp at hh
    | err =>
      simp only [M.pure_apply, Prod.mk.injEq, Res.ok.injEq] at h
      rw [← h.1]
      exact .set e rfl rfl rfl
    | panic => simp at h

theorem setStorageCurrent_pres (T : TextOps) (x a : Addr) (v : Nat) : Pres T (setStorageCurrent x a v) := by
  intro s
  unfold setStorageCurrent
  rw [M.bind_ok (M.get_apply s), errIf_cases]
  split
  · exact ⟨fun h => h, fun h => h⟩
  · rcases hp : s.profiles.get a with _ | o
    · exact ⟨fun h => h, fun h => h⟩
    · refine ⟨fun h => store_same_ids h hp rfl rfl, fun h => ?_⟩
      intro b q u hq hu hn
      simp only [storeProfile, M.modify_apply, KV.get_set] at hq
      split at hq
      · next hb => injection hq with hq; subst hq hb; exact h _ _ u hp hu hn
      · exact h b q u hq hu hn

theorem setVpnCurrent_pres (T : TextOps) (x a : Addr) (v : Nat) : Pres T (setVpnCurrent x a v) := by
  intro s
  unfold setVpnCurrent
  rw [M.bind_ok (M.get_apply s), errIf_cases]
  split
  · exact ⟨fun h => h, fun h => h⟩
  · rcases hp : s.profiles.get a with _ | o
    · exact ⟨fun h => h, fun h => h⟩
    · refine ⟨fun h => store_same_ids h hp rfl rfl, fun h => ?_⟩
      intro b q u hq hu hn
      simp only [storeProfile, M.modify_apply, KV.get_set] at hq
      split at hq
      · next hb => injection hq with hq; subst hq hb; exact h _ _ u hp hu hn
      · exact h b q u hq hu hn

theorem setRate_pres (T : TextOps) (x : Addr) (v : Frac) : Pres T (setRate x v) := by
  intro s
  unfold setRate
  rw [M.bind_ok (M.get_apply s), errIf_cases]
  split
  · exact ⟨fun h => h, fun h => h⟩
  · rcases hv : ({ s.params with tokenRate := v } : Params).valid with _ | _
    · exact ⟨fun h => h, fun h => h⟩
    · exact ⟨fun h => ⟨h.nicks, ⟨h.accs.lt, h.accs.inj⟩, h.cards⟩, fun h => h⟩

theorem setParams_pres (T : TextOps) (p : Params) : Pres T (setParams p) := by
  intro s
  unfold setParams
  rw [M.bind_ok (M.get_apply s)]
  rcases hv : (decide (p.cardMagic ≠ s.params.cardMagic ∧ p.cardMagic ≠ 0) || !p.valid) with _ | _
  · exact ⟨fun h => ⟨h.nicks, ⟨h.accs.lt, h.accs.inj⟩, h.cards⟩, fun h => h⟩
  · exact ⟨fun h => h, fun h => h⟩

/-! ### Payment of the tariff -/

theorem renewed_id {e : Env} {p : Params} {now : Int} {o q : Profile} {b : Nat} {auto : Bool} (h : renewed? e p now o b auto = some q) :
    q.nickname = o.nickname ∧ q.cardNumber = o.cardNumber ∧
      q.activeUntil = if o.isActive now = false ∧ auto = false then some (now + e.month) else o.activeUntil.map (· + e.month) := by
  unfold renewed? at h
  dsimp only at h
  generalize hp1 : (if o.isActive now = true ∧ b ≠ o.storageLimit then { o with storageLimit := b } else o) = o1 at h
  have h1 : o1.nickname = o.nickname ∧ o1.cardNumber = o.cardNumber := by
    rw [← hp1]; split <;> exact ⟨rfl, rfl⟩
  split at h
  · next hc =>
    injection h with h
    subst h
    obtain ⟨r1, r2, r3⟩ := resetLimits_id p { o1 with activeUntil := some (now + e.month) }
    rw [r1, r2, r3, if_pos hc]
    exact ⟨h1.1, h1.2, rfl⟩
  · next hc =>
    rw [if_neg hc]
    split at h
    · cases h
    · next u hu =>
      injection h with h
      subst h
      obtain ⟨r1, r2, r3⟩ := resetLimits_id p { o1 with activeUntil := some (u + e.month) }
      rw [hu]
      cases auto with
      | true => rw [if_pos rfl, r1, r2, r3]; exact ⟨h1.1, h1.2, rfl⟩
      | false => rw [if_neg (by simp)]; exact ⟨h1.1, h1.2, rfl⟩

theorem schedule_pending {t : Int} {h : Nat} {d : List Nat} {s s' : State} {u : Unit} (hs : onSched (.schedule t h d) s = (.ok u, s')) :
    ∃ x, Pending s'.sched x ∧ x.time = t ∧ x.handler = h ∧ x.data = d := by
  unfold onSched at hs
  rcases hr : (Schedule.Req.schedule t h d).exec? s.sched with _ | r
  · rw [hr] at hs; simp at hs
  · rw [hr] at hs
    simp only [Prod.mk.injEq] at hs
    obtain ⟨-, rfl⟩ := hs
    obtain ⟨-, -, hst⟩ := Schedule.schedule?_spec hr
    exact ⟨⟨t, h, d, s.sched.next⟩, ⟨_, by rw [hst, KV.get_set_self], by simp⟩, rfl, rfl, rfl⟩

theorem payTariff_pres (T : TextOps) (e : Env) (a : Addr) (g : Nat) (auto : Bool) : Pres T (payTariff e a g auto) := by
  refine .read fun s o => .bind (.errIf _) fun _ => .bind (.orPanic _) fun q => .bind (comeBack_quiet _ _) fun _ =>
    .bind (payTotal_quiet _ _ _ _) fun _ => .bind' (.orPanic _) fun p hp => ?_
  obtain ⟨s1, t1, hp⟩ := hp
  obtain ⟨hp, -⟩ := M.orPanic_ok_iff.1 hp
  obtain ⟨h1, h2, h3⟩ := renewed_id hp
  intro w hw
  have q := schedule_quiet (p.activeUntil.getD 0) refreshHook [a] w
  unfold scheduleRenew
  rw [M.bind_apply]
  rcases hh : onSched (.schedule (p.activeUntil.getD 0) refreshHook [a]) w with ⟨r, w'⟩
  rw [hh] at q
  cases r with
  | ok x =>
    have hs' : w'.profiles.get a = some o := by rw [q.profiles]; exact hw
    refine ⟨fun hi => setProfile_same_ids e a (q.ids hi) hs' h1 h2, fun hr => setProfile_renew e a (q.renew hr) fun u hu _ => ?_⟩
    obtain ⟨x, x1, x2, x3, x4⟩ := schedule_pending hh
    exact ⟨x, x1, by rw [x2, hu]; rfl, x3, x4⟩
  | err => exact ⟨fun hi => q.ids hi, fun hi => q.renew hi⟩
  | panic => exact ⟨fun hi => q.ids hi, fun hi => q.renew hi⟩

theorem monthly_pres (T : TextOps) (e : Env) (a : Addr) : Pres T (monthly e a) := by
  refine .read fun s o => ?_
  split
  · obtain ⟨h1, h2, h3⟩ := resetLimits_id s.params o
    exact .set e h1 h2 h3
  · split
    · intro w _
      have h := payTariff_pres T e a 0 true w
      unfold onErr
      rcases hh : payTariff e a 0 true w with ⟨r, w'⟩
      rw [hh] at h
      have q := onReferral_quiet (e.setActive a false) w'
      cases r with
      | ok x => exact h
      | err => exact ⟨fun hi => q.ids (h.1 hi), fun hi => q.renew (h.2 hi)⟩
      | panic => exact h
    · exact .quiet (onReferral_quiet _)

/-! ### Creation and update -/

theorem apply_foldl (us : List Update) (o : Profile) : (us.foldl Update.apply o).cardNumber = o.cardNumber ∧
    (us.foldl Update.apply o).activeUntil = o.activeUntil := by
  induction us generalizing o with
  | nil => exact ⟨rfl, rfl⟩
  | cons u us ih =>
    obtain ⟨h1, h2⟩ := ih (u.apply o)
    exact ⟨h1.trans (by cases u <;> rfl), h2.trans (by cases u <;> rfl)⟩

theorem updateProfile_ids {T : TextOps} (hT : TextOk T) {e : Env} (he : e.text = T) {a : Addr} {us : List Update} {s t : State}
    {u : Unit} (h : updateProfile e a us s = (.ok u, t)) (hi : Ids T s) : Ids T t := by
  unfold updateProfile at h
  rw [M.errIf_bind_ok, M.errIf_bind_ok, M.get_bind_ok, M.orPanic_bind_ok] at h
  obtain ⟨-, -, o, ho, h⟩ := h
  obtain ⟨n, g1, g2, -⟩ := hi.cards a o ho
  exact setProfile_ok_ids hT he h hi g1 (by rw [(apply_foldl us o).1]; exact g2)

theorem updateProfile_renew {e : Env} {a : Addr} {us : List Update} {s t : State}
    {u : Unit} (h : updateProfile e a us s = (.ok u, t)) (hr : Renew s) : Renew t := by
  unfold updateProfile at h
  rw [M.errIf_bind_ok, M.errIf_bind_ok, M.get_bind_ok, M.orPanic_bind_ok] at h
  obtain ⟨-, -, o, ho, h⟩ := h
  have := setProfile_renew e a (p := us.foldl Update.apply o) hr fun v h1 h2 => hr a o v ho (by rw [← (apply_foldl us o).2]; exact h1) h2
  rw [h] at this; exact this

theorem has_false {K V : Type} [LinearOrder K] {m : KV K V} {k : K} (h : m.has k = false) : m.get k = none := by
  unfold KV.has at h
  rcases hh : m.get k with _ | v
  · rfl
  · rw [hh] at h; cases h

/-- The state in which the profile of a new account is saved. -/
theorem createAccount_parts {e : Env} {c a r : Addr} {p : Option Profile} {s t : State} {u : Unit}
    (h : createAccount e c a r p s = (.ok u, t)) :
    ∃ s1 s2, s.accounts.get a = none ∧ Same s s1 ∧ Same (newAccount a s1).2 s2 ∧
      setProfile e a { p.getD {} with cardNumber := s.nextAcc ^^^ s.params.cardMagic } s2 = (.ok u, t) := by
  unfold createAccount at h
  rw [M.get_bind_ok, M.errIf_bind_ok, M.bind_ok_iff] at h
  obtain ⟨h0, u1, s1, h1, h⟩ := h
  have q1 := Quiet.when (c := (decide (0 < s.params.renamePrice) && !s.params.creators.contains c)) (chargeFee_quiet e c s.params.renamePrice) s
  rw [h1] at q1
  unfold createWithProfile at h
  rw [M.bind_ok_iff] at h
  obtain ⟨n, s1', h2, h⟩ := h
  simp only [newAccount, Prod.mk.injEq, Res.ok.injEq] at h2
  obtain ⟨rfl, rfl⟩ := h2
  rw [M.bind_ok_iff] at h
  obtain ⟨u3, s3, h3, h⟩ := h
  have q3 := onReferral_quiet (e.appendChild r a) (newAccount a s1).2
  have h3' : onReferral (e.appendChild r a) (newAccount a s1).2 = (.ok u3, s3) := h3
  rw [h3'] at q3
  rw [M.get_bind_ok] at h
  refine ⟨s1, s3, has_false h0, q1, q3, ?_⟩
  rw [q3.params] at h
  rw [← q1.nextAcc, ← q1.params]
  exact h

theorem createAccount_ids {T : TextOps} (hT : TextOk T) {e : Env} (he : e.text = T) {c a r : Addr} {p : Option Profile} {s t : State}
    {u : Unit} (h : createAccount e c a r p s = (.ok u, t)) (hi : Ids T s) : Ids T t := by
  obtain ⟨s1, s2, h0, q1, q2, h⟩ := createAccount_parts h
  have i1 := q1.ids hi
  have hn : s1.accounts.has a = false := by rw [q1.accounts]; simp [KV.has, h0]
  have i2 := q2.ids (newAccount_ids i1 hn)
  refine setProfile_ok_ids hT he h i2 (n := s.nextAcc) ?_ ?_
  · rw [q2.accounts]
    simp only [newAccount, KV.get_set_self]
    rw [q1.nextAcc]
  · rw [q2.params]
    show _ = s.nextAcc ^^^ s1.params.cardMagic
    rw [q1.params]

theorem createAccount_renew {e : Env} {c a r : Addr} {p : Option Profile} {s t : State} {u : Unit}
    (h : createAccount e c a r p s = (.ok u, t)) (hr : Renew s) (hp : ∀ q, p = some q → q.activeUntil = none) : Renew t := by
  obtain ⟨s1, s2, h0, q1, q2, h⟩ := createAccount_parts h
  have := setProfile_renew e a (p := { p.getD {} with cardNumber := s.nextAcc ^^^ s.params.cardMagic })
    (q2.renew (newAccount_renew (q1.renew hr))) fun v h1 _ => by
      cases p with
      | none => cases h1
      | some q =>
        have := hp q rfl
        simp only [Option.getD_some] at h1
        rw [this] at h1; cases h1
  rw [h] at this; exact this

/-! ### Blocks -/

theorem addAccounts_ids {T : TextOps} (l : List Addr) {s : State} (h : Ids T s) : Ids T (addAccounts l s) := by
  induction l generalizing s with
  | nil => exact h
  | cons a l ih =>
    unfold addAccounts
    refine ih ?_
    split
    · exact h
    · next hh => exact newAccount_ids h (by simpa using hh)

theorem addAccounts_renew (l : List Addr) {s : State} (h : Renew s) : Renew (addAccounts l s) := by
  induction l generalizing s with
  | nil => exact h
  | cons a l ih =>
    unfold addAccounts
    refine ih ?_
    split <;> exact h

theorem foreign_pres {T : TextOps} (f : Foreign) (s : State) : (Ids T s → Ids T (f.run s)) ∧ (Renew s → Renew (f.run s)) := by
  have q : Same s { s with bank := f.bank s.bank, sched := Schedule.execReqs s.sched (f.reqs.filter foreignReq) } :=
    ⟨rfl, rfl, rfl, rfl, rfl, rfl, rfl, fun x hx hp => execForeign_pend _ _ x hx hp⟩
  exact ⟨fun h => addAccounts_ids _ (q.ids h), fun h => addAccounts_renew _ (q.renew h)⟩

theorem runTask_pres {T : TextOps} (e : Schedule.Task → Env) (f : Schedule.Task → Foreign) (t : Schedule.Task) (s : State) :
    (Ids T s → Ids T (runTask e f t s)) ∧ (Renew s → Renew (runTask e f t s)) := by
  unfold runTask
  split
  · exact monthly_pres T _ _ s
  · split
    · exact monthlyIm_pres T _ _ s
    · exact foreign_pres _ s

theorem runTasks_pres {T : TextOps} (e : Schedule.Task → Env) (f : Schedule.Task → Foreign) (l : List Schedule.Task) (s : State) :
    (Ids T s → Ids T (runTasks e f l s)) ∧ (Renew s → Renew (runTasks e f l s)) := by
  induction l generalizing s with
  | nil => exact ⟨fun h => h, fun h => h⟩
  | cons t l ih =>
    have h1 := runTask_pres (T := T) e f t s
    have h2 := ih (runTask e f t s)
    exact ⟨fun h => h2.1 (h1.1 h), fun h => h2.2 (h1.2 h)⟩

theorem addAccounts_now (l : List Addr) (s : State) : (addAccounts l s).now = s.now := by
  induction l generalizing s with
  | nil => rfl
  | cons a l ih => unfold addAccounts; rw [ih]; split <;> rfl

theorem setProfile_now (e : Env) (a : Addr) (p : Profile) (s : State) : (setProfile e a p s).2.now = s.now := by
  rcases setProfile_stores e a p s with f | ⟨c, f⟩ <;> exact f.now

/-- The block time does not change while a computation runs. -/
def Now {α : Type} (m : M State α) : Prop := ∀ s, (m s).2.now = s.now

theorem Quiet.nowK {α : Type} {m : M State α} (h : Quiet m) : Now m := fun s => (h s).now

theorem Now.bind {α β : Type} {m : M State α} {f : α → M State β} (hm : Now m) (hf : ∀ a, Now (f a)) : Now (m >>= f) := by
  intro s
  have := hm s
  rw [M.bind_apply]
  rcases h : m s with ⟨r, s'⟩
  rw [h] at this
  cases r with
  | ok a => exact (hf a s').trans this
  | err => exact this
  | panic => exact this

theorem payTariff_now (e : Env) (a : Addr) (g : Nat) (auto : Bool) : Now (payTariff e a g auto) :=
  .bind (Quiet.nowK .get) fun _ => .bind (Quiet.orPanic _).nowK fun _ => .bind (Quiet.errIf _).nowK fun _ =>
    .bind (Quiet.orPanic _).nowK fun _ => .bind (comeBack_quiet _ _).nowK fun _ => .bind (payTotal_quiet _ _ _ _).nowK fun _ =>
    .bind (Quiet.orPanic _).nowK fun _ => .bind (schedule_quiet _ _ _).nowK fun _ => setProfile_now e a _

theorem monthly_now (e : Env) (a : Addr) : Now (monthly e a) := by
  refine .bind (Quiet.nowK .get) fun s => .bind (Quiet.orPanic _).nowK fun o => ?_
  split
  · exact setProfile_now e a _
  · split
    · intro w
      have := payTariff_now e a 0 true w
      unfold onErr
      rcases hh : payTariff e a 0 true w with ⟨r, w'⟩
      rw [hh] at this
      cases r with
      | ok x => exact this
      | err => exact this
      | panic => exact this
    · exact (onReferral_quiet _).nowK

theorem monthlyIm_now (e : Env) (a : Addr) : Now (monthlyIm e a) := by
  refine .bind (Quiet.nowK .get) fun s => .bind (Quiet.orPanic _).nowK fun o => .bind (Quiet.nowK (.onErr ?_ (.pure _))) fun p => setProfile_now e a _
  split
  · exact prolong_quiet _ _ _
  · exact .err

theorem runTasks_now (e : Schedule.Task → Env) (f : Schedule.Task → Foreign) (l : List Schedule.Task) (s : State) :
    (runTasks e f l s).now = s.now := by
  induction l generalizing s with
  | nil => rfl
  | cons t l ih =>
    refine (ih (runTask e f t s)).trans ?_
    unfold runTask
    split
    · exact monthly_now _ _ s
    · split
      · exact monthlyIm_now _ _ s
      · exact addAccounts_now _ _

theorem block_pres {T : TextOps} (e : Schedule.Task → Env) (f : Schedule.Task → Foreign) (now : Int) {s : State} :
    (Ids T s → Ids T (block e f now s)) ∧ (s.now ≤ now → Renew s → Renew (block e f now s)) := by
  have h := runTasks_pres (T := T) e f (dueTasks now s.sched) { s with now := now }
  have hn := runTasks_now e f (dueTasks now s.sched) { s with now := now }
  refine ⟨fun hi => ?_, fun hle hr => ?_⟩
  · have := h.1 ⟨hi.nicks, ⟨hi.accs.lt, hi.accs.inj⟩, hi.cards⟩
    exact ⟨this.nicks, ⟨this.accs.lt, this.accs.inj⟩, this.cards⟩
  · have := h.2 (fun a p u h1 h2 h3 => hr a p u h1 h2 (by have h3' : now < u := h3; omega))
    intro a p u h1 h2 h3
    obtain ⟨x, ⟨l, hl, hm⟩, x2, x3, x4⟩ := this a p u h1 h2 h3
    refine ⟨x, ⟨l, ?_, hm⟩, x2, x3, x4⟩
    show (Schedule.eraseAll _ _).get x.time = some l
    rw [Schedule.get_eraseAll, if_neg]
    · exact hl
    · intro hd
      have := (Schedule.mem_dueKeys.1 hd).1
      have h3' : (runTasks e f (dueTasks now s.sched) { s with now := now }).now < u := h3
      rw [hn] at h3'
      have h4 : now < u := h3'
      omega

/-! ### Executions -/

theorem tx_pres {T : TextOps} {α : Type} {m : M State α} (h : Pres T m) (s : State) :
    (Ids T s → Ids T (M.tx m s)) ∧ (Renew s → Renew (M.tx m s)) := by
  rcases M.tx_cases m s with ⟨x, hx⟩ | ⟨-, hx⟩
  · have := h s
    rw [hx] at this; exact this
  · rw [hx]; exact ⟨fun h => h, fun h => h⟩

theorem run_ids {T : TextOps} (hT : TextOk T) {e : Env} (he : e.text = T) (op : Op) {s : State} (h : Ids T s) : Ids T (op.run e s) := by
  cases op with
  | createAccount c a r p =>
    rcases M.tx_cases (createAccount e c a r p) s with ⟨x, hx⟩ | ⟨-, hx⟩
    · exact createAccount_ids hT he hx h
    · dsimp only [Op.run]; rw [hx]; exact h
  | updateProfile a us =>
    rcases M.tx_cases (updateProfile e a us) s with ⟨x, hx⟩ | ⟨-, hx⟩
    · exact updateProfile_ids hT he hx h
    · dsimp only [Op.run]; rw [hx]; exact h
  | setStorageCurrent x a v => exact (tx_pres (setStorageCurrent_pres T x a v) s).1 h
  | setVpnCurrent x a v => exact (tx_pres (setVpnCurrent_pres T x a v) s).1 h
  | setRate x v => exact (tx_pres (setRate_pres T x v) s).1 h
  | setParams p => exact (tx_pres (setParams_pres T p) s).1 h
  | payTariff a g => exact (tx_pres (payTariff_pres T e a g false) s).1 h
  | buyStorage a g => exact (tx_pres (buyStorage_pres T e a g) s).1 h
  | buyIm a g => exact (tx_pres (buyIm_pres T e a g) s).1 h
  | buyVpn a g => exact (tx_pres (buyVpn_pres T e a g) s).1 h
  | giveStorageUp a g => exact (tx_pres (giveStorageUp_pres T e a g) s).1 h
  | giveImUp a g => exact (tx_pres (giveImUp_pres T e a g) s).1 h
  | prolongIm a => exact (tx_pres (prolongIm_pres T e a) s).1 h
  | foreign f => exact (foreign_pres f s).1 h
  | block e' f now => exact (block_pres e' f now).1 h

/-- The operations for which the renewal tasks are kept: no account is created with a subscription end in its profile, block
times do not go back. -/
def Op.Plain (s : State) : Op → Prop
  | .createAccount _ _ _ p => ∀ q, p = some q → q.activeUntil = none
  | .block _ _ now => s.now ≤ now
  | _ => True

theorem run_renew (e : Env) (op : Op) {s : State} (hop : op.Plain s) (h : Renew s) : Renew (op.run e s) := by
  cases op with
  | createAccount c a r p =>
    rcases M.tx_cases (createAccount e c a r p) s with ⟨x, hx⟩ | ⟨-, hx⟩
    · exact createAccount_renew hx h hop
    · dsimp only [Op.run]; rw [hx]; exact h
  | updateProfile a us =>
    rcases M.tx_cases (updateProfile e a us) s with ⟨x, hx⟩ | ⟨-, hx⟩
    · exact updateProfile_renew hx h
    · dsimp only [Op.run]; rw [hx]; exact h
  | setStorageCurrent x a v => exact (tx_pres (setStorageCurrent_pres e.text x a v) s).2 h
  | setVpnCurrent x a v => exact (tx_pres (setVpnCurrent_pres e.text x a v) s).2 h
  | setRate x v => exact (tx_pres (setRate_pres e.text x v) s).2 h
  | setParams p => exact (tx_pres (setParams_pres e.text p) s).2 h
  | payTariff a g => exact (tx_pres (payTariff_pres e.text e a g false) s).2 h
  | buyStorage a g => exact (tx_pres (buyStorage_pres e.text e a g) s).2 h
  | buyIm a g => exact (tx_pres (buyIm_pres e.text e a g) s).2 h
  | buyVpn a g => exact (tx_pres (buyVpn_pres e.text e a g) s).2 h
  | giveStorageUp a g => exact (tx_pres (giveStorageUp_pres e.text e a g) s).2 h
  | giveImUp a g => exact (tx_pres (giveImUp_pres e.text e a g) s).2 h
  | prolongIm a => exact (tx_pres (prolongIm_pres e.text e a) s).2 h
  | foreign f => exact (foreign_pres (T := e.text) f s).2 h
  | block e' f now => exact (block_pres (T := e.text) e' f now).2 hop h

/-- A chain without profiles yet (the genesis import of profiles is not modelled); accounts may exist. -/
structure Start (s : State) : Prop where
  profiles : s.profiles = KV.empty
  accs : Accs s

/-- States reached from a start by operations, each in some environment with the same text functions. -/
inductive Reachable (T : TextOps) : State → Prop where
  | start {s : State} (h : Start s) : Reachable T s
  | step {s : State} (e : Env) (he : e.text = T) (op : Op) (h : Reachable T s) : Reachable T (op.run e s)

/-- The same with plain operations only. -/
inductive PlainReachable (T : TextOps) : State → Prop where
  | start {s : State} (h : Start s) : PlainReachable T s
  | step {s : State} (e : Env) (he : e.text = T) (op : Op) (hop : op.Plain s) (h : PlainReachable T s) : PlainReachable T (op.run e s)

theorem Start.ids {T : TextOps} {s : State} (h : Start s) : Ids T s := by
  refine ⟨?_, h.accs, ?_⟩ <;> intro a p hp <;> rw [h.profiles, KV.get_empty] at hp <;> cases hp

theorem Start.renew {s : State} (h : Start s) : Renew s := by
  intro a p u hp; rw [h.profiles, KV.get_empty] at hp; cases hp

theorem Reachable.ids {T : TextOps} (hT : TextOk T) {s : State} (h : Reachable T s) : Ids T s := by
  induction h with
  | start h => exact h.ids
  | step e he op _ ih => exact run_ids hT he op ih

theorem PlainReachable.reachable {T : TextOps} {s : State} (h : PlainReachable T s) : Reachable T s := by
  induction h with
  | start h => exact .start h
  | step e he op _ _ ih => exact .step e he op ih

theorem PlainReachable.renew {T : TextOps} {s : State} (h : PlainReachable T s) : Renew s := by
  induction h with
  | start h => exact h.renew
  | step e he op hop _ ih => exact run_renew e op hop ih

end Verif.Profile
