import Verif.Profile.Genesis

/-! Property C103: what the queries of the profile module answer. -/
namespace Verif.Profile
open Verif.Util Verif.Bank

/-! ### The queries, keeper/query_server.go -/

/-- What comes back from a query by nickname or card number. -/
inductive Answer where
  | notFound
  | found (a : Addr) (p : Profile)
  | crash
deriving DecidableEq, Repr

/-- `GetByAddress`, query_server.go:15-24 (reading the address from its text is not modelled); `none` is `ErrNotFound`. -/
def queryAddress (s : State) (a : Addr) : Option Profile := s.profiles.get a

/-- query_server.go:29-36 and 42-49: the address found in an index, then the profile, which is dereferenced without a look. -/
def shown (s : State) : Option Addr → Answer
  | none => .notFound
  | some a =>
    match s.profiles.get a with
    | none => .crash
    | some p => .found a p

/-- `GetByNickname`, query_server.go:26-37. -/
def queryNickname (e : Env) (s : State) (n : Text) : Answer := shown s (byNickname e s n)

/-- `GetByCardNumber`, query_server.go:39-50. -/
def queryCard (s : State) (c : Nat) : Answer := shown s (byCard s c)

/-! ### Both indexes lead to profiles -/

/-- Entries of the indexes lead to accounts with a profile, those of the card index to one with that card number
(unless it is zero). -/
structure Index (s : State) : Prop where
  nick : ∀ x a, s.aliases.get x = some a → ∃ p, s.profiles.get a = some p
  card : ∀ c a, s.cards.get c = some a → ∃ p, s.profiles.get a = some p ∧ (c ≠ 0 → p.cardNumber = c)

/-- Nicknames, card numbers and both indexes are the same. -/
structure Even (s t : State) : Prop where
  aliases : t.aliases = s.aliases
  cards : t.cards = s.cards
  names : ∀ a, (t.profiles.get a).map (fun p => (p.nickname, p.cardNumber)) = (s.profiles.get a).map fun p => (p.nickname, p.cardNumber)

theorem Even.refl (s : State) : Even s s := ⟨rfl, rfl, fun _ => rfl⟩
theorem Even.trans {s t u : State} (h : Even s t) (g : Even t u) : Even s u :=
  ⟨g.aliases.trans h.aliases, g.cards.trans h.cards, fun a => (g.names a).trans (h.names a)⟩
theorem Same.even {s t : State} (h : Same s t) : Even s t := ⟨h.aliases, h.cards, fun a => by rw [h.profiles]⟩

theorem Even.forward {s t : State} (h : Even s t) {a : Addr} {p : Profile} (hp : s.profiles.get a = some p) :
    ∃ q, t.profiles.get a = some q ∧ q.nickname = p.nickname ∧ q.cardNumber = p.cardNumber := by
  have := h.names a
  rw [hp] at this
  rcases hq : t.profiles.get a with _ | q
  · rw [hq] at this; cases this
  · rw [hq] at this
    simp only [Option.map_some, Option.some.injEq, Prod.mk.injEq] at this
    exact ⟨q, rfl, this.1, this.2⟩

theorem Even.backward {s t : State} (h : Even s t) {a : Addr} {p : Profile} (hp : t.profiles.get a = some p) :
    ∃ q, s.profiles.get a = some q ∧ q.nickname = p.nickname ∧ q.cardNumber = p.cardNumber :=
  Even.forward (s := t) (t := s) ⟨h.aliases.symm, h.cards.symm, fun b => (h.names b).symm⟩ hp

theorem Even.index {s t : State} (h : Even s t) (hi : Index s) : Index t := by
  refine ⟨fun x a hx => ?_, fun c a hc => ?_⟩
  · rw [h.aliases] at hx
    obtain ⟨p, hp⟩ := hi.nick x a hx
    obtain ⟨q, hq, -⟩ := h.forward hp
    exact ⟨q, hq⟩
  · rw [h.cards] at hc
    obtain ⟨p, hp, hpc⟩ := hi.card c a hc
    obtain ⟨q, hq, -, hqc⟩ := h.forward hp
    exact ⟨q, hq, fun h => hqc.trans (hpc h)⟩

/-! ### Operations that change neither nicknames nor card numbers -/

/-- The computation, started with profile `o` of `a` on record, is even, however it ends. -/
def EvenAt (a : Addr) (o : Profile) {α : Type} (m : M State α) : Prop := ∀ s, s.profiles.get a = some o → Even s (m s).2

def Evenly {α : Type} (m : M State α) : Prop := ∀ s, Even s (m s).2

theorem EvenAt.bind' {a : Addr} {o : Profile} {α β : Type} {m : M State α} {f : α → M State β} (hm : Quiet m)
    (hf : ∀ x, (∃ s t, m s = (.ok x, t)) → EvenAt a o (f x)) : EvenAt a o (m >>= f) := by
  intro s hs
  have q := hm s
  rw [M.bind_apply]
  rcases h : m s with ⟨r, s'⟩
  rw [h] at q
  cases r with
  | ok x => exact q.even.trans (hf x ⟨s, s', h⟩ s' (by rw [q.profiles]; exact hs))
  | err => exact q.even
  | panic => exact q.even

theorem EvenAt.bind {a : Addr} {o : Profile} {α β : Type} {m : M State α} {f : α → M State β} (hm : Quiet m)
    (hf : ∀ x, EvenAt a o (f x)) : EvenAt a o (m >>= f) := .bind' hm fun x _ => hf x

theorem Quiet.evenly {α : Type} {m : M State α} (h : Quiet m) : Evenly m := fun s => (h s).even

theorem store_even {s : State} {a : Addr} {o p : Profile} (ho : s.profiles.get a = some o) (hn : p.nickname = o.nickname)
    (hc : p.cardNumber = o.cardNumber) : Even s { s with profiles := s.profiles.set a p } := by
  refine ⟨rfl, rfl, fun b => ?_⟩
  simp only [KV.get_set]
  split
  · next h => subst h; rw [ho]; simp [hn, hc]
  · rfl

theorem ensureAccount_ok (a : Addr) (w : State) : ∃ w', ensureAccount a w = (.ok (), w') ∧ w'.profiles = w.profiles ∧ w'.aliases = w.aliases ∧
    w'.cards = w.cards := by
  unfold ensureAccount
  rw [M.bind_ok (M.get_apply w)]
  split
  · exact ⟨w, rfl, rfl, rfl, rfl⟩
  · exact ⟨(newAccount a w).2, rfl, rfl, rfl, rfl⟩

theorem EvenAt.set (e : Env) {a : Addr} {o p : Profile} (hn : p.nickname = o.nickname) (hc : p.cardNumber = o.cardNumber) :
    EvenAt a o (setProfile e a p) := by
  intro s ho
  unfold setProfile
  rw [M.bind_ok (M.get_apply s), errIf_cases]
  split
  · exact .refl s
  have h1 : updateAlias e a (s.profiles.get a) p.nickname s = (.ok (), s) := by
    rw [ho]; unfold updateAlias; dsimp only
    rw [if_neg (by simp [hn])]; rfl
  have h2 : updateCard a (s.profiles.get a) p.cardNumber s = (.ok p.cardNumber, s) := by
    rw [ho]; unfold updateCard; dsimp only
    split
    · rw [M.bind_ok (a := ()) (s' := s)]
      · rfl
      · simp [when, hc]
    · rw [hc]; rfl
  rw [M.bind_ok h1, M.bind_ok h2]
  have h3 : storeProfile a { p with cardNumber := p.cardNumber } s = (.ok (), { s with profiles := s.profiles.set a p }) := rfl
  rw [M.bind_ok h3]
  refine (store_even ho hn hc).trans ?_
  generalize ({ s with profiles := s.profiles.set a p } : State) = w
  obtain ⟨w', hw, h1, h2, h3⟩ := ensureAccount_ok a w
  rw [M.bind_ok hw]
  exact Even.trans (t := w') ⟨h2, h3, fun _ => by rw [h1]⟩ (tellReferral_quiet e a _ p w').even

theorem Evenly.errIf {β : Type} {c : Bool} {f : Unit → M State β} (h : Evenly (f ())) : Evenly (M.errIf c >>= f) := by
  intro s
  cases c
  · exact h s
  · exact .refl s

theorem Evenly.read {a : Addr} {β : Type} {f : State → Profile → M State β} (h : ∀ s o, EvenAt a o (f s o)) :
    Evenly (M.get >>= fun s => M.orPanic (s.profiles.get a) >>= f s) := by
  intro s
  rw [M.bind_ok (M.get_apply s)]
  rcases hs : s.profiles.get a with _ | o
  · exact .refl s
  · exact h s o s hs

theorem buyStorage_even (e : Env) (a : Addr) (g : Nat) : Evenly (buyStorage e a g) :=
  .errIf <| .read fun _ _ => .bind (.errIf _) fun _ => .bind (.orPanic _) fun _ => .bind (.orPanic _) fun _ =>
    .bind (.panicIf _) fun _ => .bind (paySplit_quiet _ _ _) fun _ => .set e rfl rfl

theorem buyVpn_even (e : Env) (a : Addr) (g : Nat) : Evenly (buyVpn e a g) :=
  .errIf <| .read fun _ _ => .bind (.errIf _) fun _ => .bind (.orPanic _) fun _ => .bind (.orPanic _) fun _ =>
    .bind (paySplit_quiet _ _ _) fun _ => .set e rfl rfl

theorem buyIm_even (e : Env) (a : Addr) (g : Nat) : Evenly (buyIm e a g) := by
  refine .errIf <| .read fun s o => .bind (.orPanic _) fun _ => .bind (.orPanic _) fun _ =>
    .bind (.panicIf _) fun _ => .bind (paySplit_quiet _ _ _) fun _ => ?_
  split
  · exact .set e rfl rfl
  · exact .bind (schedule_quiet _ _ _) fun _ => .set e rfl rfl

theorem giveStorageUp_even (e : Env) (a : Addr) (g : Nat) : Evenly (giveStorageUp e a g) :=
  .errIf <| .read fun _ _ => .bind (.errIf _) fun _ => .bind (.errIf _) fun _ => .set e rfl rfl

theorem giveImUp_even (e : Env) (a : Addr) (g : Nat) : Evenly (giveImUp e a g) := by
  refine .read fun s o => .bind (.errIf _) fun _ => ?_
  split
  · exact .bind (deleteIm_quiet _ _) fun _ => .set e rfl rfl
  · exact .set e rfl rfl

theorem prolongIm_even (e : Env) (a : Addr) : Evenly (prolongIm e a) := by
  refine .read fun _ o => .bind' (prolong_quiet _ _ _) fun p hp => ?_
  obtain ⟨s, t, h⟩ := hp
  obtain ⟨h1, h2, -⟩ := prolong_profile h
  exact .set e h1 h2

theorem monthlyIm_even (e : Env) (a : Addr) : Evenly (monthlyIm e a) := by
  refine .read fun _ o => .bind' (.onErr ?_ (.pure _)) fun p hp => ?_
  · split
    · exact prolong_quiet _ _ _
    · exact .err
  · obtain ⟨s, t, h⟩ := hp
    unfold onErr at h
    rcases hh : (if o.autoPayImExtra then prolong e a o else M.err) s with ⟨r, s'⟩
    rw [hh] at h
    cases r with
    | ok x =>
      simp only [Prod.mk.injEq, Res.ok.injEq] at h
      obtain ⟨rfl, rfl⟩ := h
      split at hh
      · obtain ⟨h1, h2, -⟩ := prolong_profile hh
        exact .set e h1 h2
      · simp at hh
    | err =>
      simp only [M.pure_apply, Prod.mk.injEq, Res.ok.injEq] at h
      rw [← h.1]
      exact .set e rfl rfl
    | panic => simp at h

theorem setStorageCurrent_even (x a : Addr) (v : Nat) : Evenly (setStorageCurrent x a v) := by
  intro s
  unfold setStorageCurrent
  rw [M.bind_ok (M.get_apply s), errIf_cases]
  split
  · exact .refl s
  · rcases hp : s.profiles.get a with _ | o
    · exact .refl s
    · exact store_even hp rfl rfl

theorem setVpnCurrent_even (x a : Addr) (v : Nat) : Evenly (setVpnCurrent x a v) := by
  intro s
  unfold setVpnCurrent
  rw [M.bind_ok (M.get_apply s), errIf_cases]
  split
  · exact .refl s
  · rcases hp : s.profiles.get a with _ | o
    · exact .refl s
    · exact store_even hp rfl rfl

theorem setRate_even (x : Addr) (v : Frac) : Evenly (setRate x v) := by
  intro s
  unfold setRate
  rw [M.bind_ok (M.get_apply s), errIf_cases]
  split
  · exact .refl s
  · rcases hv : ({ s.params with tokenRate := v } : Params).valid with _ | _
    · exact .refl s
    · exact ⟨rfl, rfl, fun _ => rfl⟩

theorem setParams_even (p : Params) : Evenly (setParams p) := by
  intro s
  unfold setParams
  rw [M.bind_ok (M.get_apply s)]
  rcases hv : (decide (p.cardMagic ≠ s.params.cardMagic ∧ p.cardMagic ≠ 0) || !p.valid) with _ | _
  · exact ⟨rfl, rfl, fun _ => rfl⟩
  · exact .refl s

theorem payTariff_even (e : Env) (a : Addr) (g : Nat) (auto : Bool) : Evenly (payTariff e a g auto) := by
  refine .read fun s o => .bind (.errIf _) fun _ => .bind (.orPanic _) fun q => .bind (comeBack_quiet _ _) fun _ =>
    .bind (payTotal_quiet _ _ _ _) fun _ => .bind' (.orPanic _) fun p hp => ?_
  obtain ⟨s1, t1, hp⟩ := hp
  obtain ⟨hp, -⟩ := M.orPanic_ok_iff.1 hp
  obtain ⟨h1, h2, -⟩ := renewed_id hp
  exact .bind (schedule_quiet _ _ _) fun _ => .set e h1 h2

theorem monthly_even (e : Env) (a : Addr) : Evenly (monthly e a) := by
  refine .read fun s o => ?_
  split
  · obtain ⟨h1, h2, -⟩ := resetLimits_id s.params o
    exact .set e h1 h2
  · split
    · intro w _
      have h := payTariff_even e a 0 true w
      unfold onErr
      rcases hh : payTariff e a 0 true w with ⟨r, w'⟩
      rw [hh] at h
      cases r with
      | ok x => exact h
      | err => exact h.trans (onReferral_quiet (e.setActive a false) w').even
      | panic => exact h
    · exact fun w _ => (onReferral_quiet _ w).even

theorem addAccounts_even (l : List Addr) (s : State) : Even s (addAccounts l s) := by
  induction l generalizing s with
  | nil => exact .refl s
  | cons a l ih =>
    unfold addAccounts
    refine Even.trans ?_ (ih _)
    split
    · exact .refl s
    · exact ⟨rfl, rfl, fun _ => rfl⟩

theorem foreign_even (f : Foreign) (s : State) : Even s (f.run s) :=
  Even.trans (t := { s with bank := f.bank s.bank, sched := Schedule.execReqs s.sched (f.reqs.filter foreignReq) })
    ⟨rfl, rfl, fun _ => rfl⟩ (addAccounts_even _ _)

theorem runTasks_even (e : Schedule.Task → Env) (f : Schedule.Task → Foreign) (l : List Schedule.Task) (s : State) :
    Even s (runTasks e f l s) := by
  induction l generalizing s with
  | nil => exact .refl s
  | cons t l ih =>
    refine Even.trans ?_ (ih (runTask e f t s))
    unfold runTask
    split
    · exact monthly_even _ _ s
    · split
      · exact monthlyIm_even _ _ s
      · exact foreign_even _ s

theorem block_even (e : Schedule.Task → Env) (f : Schedule.Task → Foreign) (now : Int) (s : State) : Even s (block e f now s) := by
  have h := runTasks_even e f (dueTasks now s.sched) { s with now := now }
  exact ⟨h.aliases, h.cards, h.names⟩

theorem tx_even {α : Type} {m : M State α} (h : Evenly m) (s : State) : Even s (M.tx m s) := by
  rcases M.tx_cases m s with ⟨x, hx⟩ | ⟨-, hx⟩
  · have := h s
    rw [hx] at this; exact this
  · rw [hx]; exact .refl s

/-- All operations but the creation of an account and the update of a profile. -/
theorem run_even (e : Env) (op : Op) (s : State) :
    (∃ c a r p, op = .createAccount c a r p) ∨ (∃ a us, op = .updateProfile a us) ∨ Even s (op.run e s) := by
  cases op with
  | createAccount c a r p => exact .inl ⟨c, a, r, p, rfl⟩
  | updateProfile a us => exact .inr (.inl ⟨a, us, rfl⟩)
  | setStorageCurrent x a v => exact .inr (.inr (tx_even (setStorageCurrent_even x a v) s))
  | setVpnCurrent x a v => exact .inr (.inr (tx_even (setVpnCurrent_even x a v) s))
  | setRate x v => exact .inr (.inr (tx_even (setRate_even x v) s))
  | setParams p => exact .inr (.inr (tx_even (setParams_even p) s))
  | payTariff a g => exact .inr (.inr (tx_even (payTariff_even e a g false) s))
  | buyStorage a g => exact .inr (.inr (tx_even (buyStorage_even e a g) s))
  | buyIm a g => exact .inr (.inr (tx_even (buyIm_even e a g) s))
  | buyVpn a g => exact .inr (.inr (tx_even (buyVpn_even e a g) s))
  | giveStorageUp a g => exact .inr (.inr (tx_even (giveStorageUp_even e a g) s))
  | giveImUp a g => exact .inr (.inr (tx_even (giveImUp_even e a g) s))
  | prolongIm a => exact .inr (.inr (tx_even (prolongIm_even e a) s))
  | foreign f => exact .inr (.inr (foreign_even f s))
  | block e' f now => exact .inr (.inr (block_even e' f now s))

/-! ### Saving any profile -/

/-- The card store after the card part, for any card number. -/
theorem updateCard_any {a : Addr} {old : Option Profile} {c c' : Nat} {s t : State} (h : updateCard a old c s = (.ok c', t)) :
    ∃ C, t = { s with cards := C } ∧ (C = s.cards ∧ (∀ o, old = some o → c' = o.cardNumber) ∨
      c' = c ∧ ∀ k b, C.get k = some b → k = c ∧ b = a ∨ (s.cards.get k = some b ∧ ∀ o, old = some o → o.cardNumber ≠ 0 → k ≠ o.cardNumber)) := by
  unfold updateCard at h
  cases old with
  | some o =>
    dsimp only at h
    split at h
    · rw [M.bind_ok_iff] at h
      obtain ⟨u, s1, h1, h2⟩ := h
      simp only [M.pure_apply, Prod.mk.injEq, Res.ok.injEq] at h2
      obtain ⟨rfl, rfl⟩ := h2
      rcases when_ok h1 with ⟨hc, h1⟩ | ⟨hc, rfl⟩
      · rw [M.bind_ok_iff] at h1
        obtain ⟨u1, s2, h2, h3⟩ := h1
        simp only [setCard, M.modify_apply, Prod.mk.injEq] at h3
        obtain ⟨-, rfl⟩ := h3
        rcases when_ok h2 with ⟨hz, h2⟩ | ⟨hz, rfl⟩
        · simp only [removeCard, M.modify_apply, Prod.mk.injEq] at h2
          obtain ⟨-, rfl⟩ := h2
          refine ⟨_, rfl, .inr ⟨rfl, fun k b hk => ?_⟩⟩
          rw [KV.get_set] at hk
          split at hk
          · next hkc => injection hk with hk; exact .inl ⟨hkc, hk.symm⟩
          · rw [KV.get_erase] at hk
            split at hk
            · cases hk
            · next hne => exact .inr ⟨hk, fun o' ho' _ => by cases ho'; exact hne⟩
        · refine ⟨_, rfl, .inr ⟨rfl, fun k b hk => ?_⟩⟩
          rw [KV.get_set] at hk
          split at hk
          · next hkc => injection hk with hk; exact .inl ⟨hkc, hk.symm⟩
          · exact .inr ⟨hk, fun o' ho' hne => by cases ho'; simp [hne] at hz⟩
      · refine ⟨_, rfl, .inl ⟨rfl, fun o' ho' => by cases ho'; simpa using Eq.symm (by simpa using hc)⟩⟩
    · simp only [M.pure_apply, Prod.mk.injEq, Res.ok.injEq] at h
      obtain ⟨rfl, rfl⟩ := h
      exact ⟨_, rfl, .inl ⟨rfl, fun o' ho' => by cases ho'; rfl⟩⟩
  | none =>
    dsimp only at h
    rw [M.bind_ok_iff] at h
    obtain ⟨u, s1, h1, h2⟩ := h
    simp only [M.pure_apply, Prod.mk.injEq, Res.ok.injEq] at h2
    obtain ⟨rfl, rfl⟩ := h2
    rcases when_ok h1 with ⟨-, h1⟩ | ⟨-, rfl⟩
    · simp only [setCard, M.modify_apply, Prod.mk.injEq] at h1
      obtain ⟨-, rfl⟩ := h1
      refine ⟨_, rfl, .inr ⟨rfl, fun k b hk => ?_⟩⟩
      rw [KV.get_set] at hk
      split at hk
      · next hkc => injection hk with hk; exact .inl ⟨hkc, hk.symm⟩
      · exact .inr ⟨hk, fun o ho => by cases ho⟩
    · exact ⟨_, rfl, .inl ⟨rfl, fun o ho => by cases ho⟩⟩

/-- Saving a profile, with any nickname and card number, keeps the indexes right, however it ends. -/
theorem setProfile_index (e : Env) (a : Addr) (p : Profile) : M.Preserves Index (setProfile e a p) := by
  intro s hi
  unfold setProfile
  rw [M.bind_ok (M.get_apply s), errIf_cases]
  split
  · exact hi
  rcases h1 : updateAlias e a (s.profiles.get a) p.nickname s with ⟨r1, s1⟩
  -- the profile store and the card store are as before; new entries of the nickname index lead to `a`
  have k1 : s1.profiles = s.profiles ∧ s1.cards = s.cards ∧ (∀ x b, s1.aliases.get x = some b → b = a ∨ s.aliases.get x = some b) ∧
      (s.profiles.get a = none → r1 = .ok ()) := by
    have hset : ∀ (n : Text) (w : State), w.profiles = s.profiles ∧ w.cards = s.cards ∧
        (∀ x b, w.aliases.get x = some b → b = a ∨ s.aliases.get x = some b) →
        (setAlias e n a w).2.profiles = s.profiles ∧ (setAlias e n a w).2.cards = s.cards ∧
        (∀ x b, (setAlias e n a w).2.aliases.get x = some b → b = a ∨ s.aliases.get x = some b) := by
      intro n w hw
      refine ⟨hw.1, hw.2.1, fun x b hx => ?_⟩
      simp only [setAlias, M.modify_apply, KV.get_set] at hx
      split at hx
      · injection hx with hx; exact .inl hx.symm
      · exact hw.2.2 x b hx
    unfold updateAlias at h1
    rcases ho : s.profiles.get a with _ | o
    · rw [ho] at h1
      dsimp only at h1
      by_cases hn : e.text.trim p.nickname = []
      · simp only [when, hn, ne_eq, not_true_eq_false, decide_false, Bool.false_eq_true, if_false, M.pure_apply, Prod.mk.injEq] at h1
        obtain ⟨rfl, rfl⟩ := h1
        exact ⟨rfl, rfl, fun _ _ h => .inr h, fun _ => rfl⟩
      · simp only [when, hn, ne_eq, not_false_eq_true, decide_true, if_true] at h1
        have := hset (e.text.trim p.nickname) s ⟨rfl, rfl, fun _ _ h => .inr h⟩
        rw [h1] at this
        have hr : r1 = .ok () := by
          have := congrArg Prod.fst h1
          exact this.symm
        exact ⟨this.1, this.2.1, this.2.2, fun _ => hr⟩
    · rw [ho] at h1
      dsimp only at h1
      refine (fun h => ⟨h.1, h.2.1, h.2.2, fun hc => by cases hc⟩ : (_ ∧ _ ∧ _) → _) ?_
      split at h1
      · have hw : ∃ w, when (decide (o.nickname ≠ [])) (removeAlias e o.nickname) s = (.ok (), w) ∧ w.profiles = s.profiles ∧ w.cards = s.cards ∧
            ∀ x b, w.aliases.get x = some b → s.aliases.get x = some b := by
          by_cases hn : o.nickname = []
          · exact ⟨s, by simp [when, hn], rfl, rfl, fun _ _ h => h⟩
          · refine ⟨{ s with aliases := s.aliases.erase (e.text.lower o.nickname) }, by simp [when, hn, removeAlias], rfl, rfl, fun x b h => ?_⟩
            simp only [KV.get_erase] at h
            split at h
            · cases h
            · exact h
        obtain ⟨w, hw1, hw2, hw3, hw4⟩ := hw
        rw [M.bind_ok hw1] at h1
        by_cases hn : e.text.trim p.nickname = []
        · simp only [when, hn, ne_eq, not_true_eq_false, decide_false, Bool.false_eq_true, if_false, M.pure_apply, Prod.mk.injEq] at h1
          obtain ⟨rfl, rfl⟩ := h1
          exact ⟨hw2, hw3, fun x b h => .inr (hw4 x b h)⟩
        · simp only [when, hn, ne_eq, not_false_eq_true, decide_true, if_true] at h1
          have q := chargeFee_quiet e a 1000000 w
          rw [M.bind_apply] at h1
          rcases hc : chargeFee e a 1000000 w with ⟨r2, w2⟩
          rw [hc] at h1 q
          have hq : w2.profiles = s.profiles ∧ w2.cards = s.cards ∧ (∀ x b, w2.aliases.get x = some b → b = a ∨ s.aliases.get x = some b) :=
            ⟨q.profiles.trans hw2, q.cards.trans hw3, fun x b h => .inr (hw4 x b (by rw [← show w2.aliases = w.aliases from q.aliases]; exact h))⟩
          cases r2 with
          | ok u =>
            have := hset (e.text.trim p.nickname) w2 hq
            simp only at h1
            rw [h1] at this
            exact this
          | err => simp only [Prod.mk.injEq] at h1; rw [← h1.2]; exact hq
          | panic => simp only [Prod.mk.injEq] at h1; rw [← h1.2]; exact hq
      · simp only [M.pure_apply, Prod.mk.injEq] at h1
        rw [← h1.2]
        exact ⟨rfl, rfl, fun _ _ h => .inr h⟩
  obtain ⟨kp, kc, ka, kr⟩ := k1
  have fail : r1 ≠ .ok () → Index s1 := by
    intro hr
    have hsome : ∃ o, s.profiles.get a = some o := by
      rcases ho : s.profiles.get a with _ | o
      · exact absurd (kr ho) hr
      · exact ⟨o, rfl⟩
    refine ⟨fun x b hx => ?_, fun c b hc => ?_⟩
    · rw [kp]
      rcases ka x b hx with rfl | h
      · exact hsome
      · exact hi.nick x b h
    · rw [kp]; rw [kc] at hc; exact hi.card c b hc
  cases r1 with
  | err => rw [M.bind_err h1]; exact fail (by simp)
  | panic => rw [M.bind_panic h1]; exact fail (by simp)
  | ok u =>
  rw [M.bind_ok h1]
  have h2 : ∃ c s2, updateCard a (s.profiles.get a) p.cardNumber s1 = (.ok c, s2) := by
    unfold updateCard
    rcases s.profiles.get a with _ | o
    · dsimp only [when]; split <;> exact ⟨_, _, rfl⟩
    · dsimp only [when]
      repeat' split
      all_goals exact ⟨_, _, rfl⟩
  obtain ⟨c, s2, h2⟩ := h2
  rw [M.bind_ok h2]
  obtain ⟨C, rfl, hC⟩ := updateCard_any h2
  have h3 : storeProfile a { p with cardNumber := c } { s1 with cards := C } =
    (.ok (), { s1 with cards := C, profiles := s1.profiles.set a { p with cardNumber := c } }) := rfl
  rw [M.bind_ok h3]
  have hi3 : Index { s1 with cards := C, profiles := s1.profiles.set a { p with cardNumber := c } } := by
    refine ⟨fun x b hx => ?_, fun k b hk => ?_⟩
    · simp only [KV.get_set]
      split
      · exact ⟨_, rfl⟩
      · next hne =>
        rcases ka x b hx with h | h
        · exact absurd h hne
        · rw [kp]; exact hi.nick x b h
    · simp only [KV.get_set]
      dsimp only at hk
      rcases hC with ⟨rfl, ho⟩ | ⟨rfl, hg⟩
      · rw [kc] at hk
        obtain ⟨q, hq, hqc⟩ := hi.card k b hk
        split
        · next hb => subst hb; exact ⟨_, rfl, fun hk0 => (ho q hq).trans (hqc hk0)⟩
        · rw [kp]; exact ⟨q, hq, hqc⟩
      · rcases hg k b hk with ⟨rfl, rfl⟩ | ⟨hk', hne⟩
        · rw [if_pos rfl]; exact ⟨_, rfl, fun _ => rfl⟩
        · rw [kc] at hk'
          obtain ⟨q, hq, hqc⟩ := hi.card k b hk'
          split
          · next hb =>
            subst hb
            refine ⟨_, rfl, fun hk0 => ?_⟩
            exact absurd (hqc hk0).symm (hne q hq (by rw [hqc hk0]; exact hk0))
          · rw [kp]; exact ⟨q, hq, hqc⟩
  generalize ({ s1 with cards := C, profiles := s1.profiles.set a { p with cardNumber := c } } : State) = w at hi3 ⊢
  obtain ⟨w', hw, g1, g2, g3⟩ := ensureAccount_ok a w
  rw [M.bind_ok hw]
  exact (Even.trans (t := w') ⟨g2, g3, fun _ => by rw [g1]⟩ (tellReferral_quiet e a _ p w').even).index hi3

theorem run_index (e : Env) (op : Op) {s : State} (hi : Index s) : Index (op.run e s) := by
  rcases run_even e op s with ⟨c, a, r, p, rfl⟩ | ⟨a, us, rfl⟩ | h
  · have : M.Preserves Index (createAccount e c a r p) :=
      .bind .get fun s => .bind (.errIf _) fun _ => .bind (fun s h => (Quiet.when (chargeFee_quiet e _ _) s).even.index h) fun _ =>
        .bind (fun s h => (⟨rfl, rfl, fun _ => rfl⟩ : Even s (newAccount a s).2).index h) fun n =>
        .bind (fun s h => (onReferral_quiet _ s).even.index h) fun _ => .bind .get fun s => setProfile_index e _ _
    exact this.tx hi
  · have : M.Preserves Index (updateProfile e a us) :=
      .bind (.errIf _) fun _ => .bind (.errIf _) fun _ => .bind .get fun s => .bind (.orPanic _) fun p => setProfile_index e _ _
    exact this.tx hi
  · exact h.index hi

/-! ### Import -/

/-- Card numbers come from account numbers. -/
def Numbered (s : State) : Prop :=
  ∀ a p, s.profiles.get a = some p → ∃ n, s.accounts.get a = some n ∧ p.cardNumber = n ^^^ s.params.cardMagic

theorem importRecord_index (e : Env) (quiet : Addr → RefCall) (a : Addr) (p0 : Profile) :
    M.Preserves (fun s => Index s ∧ Numbered s) (importRecord e quiet a p0) := by
  intro s hs
  obtain ⟨hi, hn⟩ := hs
  unfold importRecord
  rw [M.bind_ok (M.get_apply s)]
  rcases ha : s.accounts.get a with _ | n
  · exact ⟨hi, hn⟩
  rw [show (M.orPanic (some n) : M State Nat) = pure n from rfl, M.bind_ok (M.pure_apply n s)]
  suffices key : ∀ p : Profile, p.cardNumber = n ^^^ s.params.cardMagic →
      (fun s => Index s ∧ Numbered s) (((when (decide (e.text.trim p.nickname ≠ [])) (setAlias e (e.text.trim p.nickname) a) >>= fun _ =>
        setCard p.cardNumber a >>= fun _ => storeProfile a p >>= fun _ => when (p.isActive s.now) (onReferral (quiet a)) >>= fun _ =>
        must (setProfile e a p)) s).2) from key _ rfl
  intro p hpc
  obtain ⟨s1, h1, g1⟩ : ∃ s1, when (decide (e.text.trim p.nickname ≠ [])) (setAlias e (e.text.trim p.nickname) a) s = (.ok (), s1) ∧
      ∃ A, s1 = { s with aliases := A } ∧ ∀ x b, A.get x = some b → b = a ∨ s.aliases.get x = some b := by
    unfold when
    split
    · refine ⟨_, rfl, _, rfl, fun x b hx => ?_⟩
      rw [KV.get_set] at hx
      split at hx
      · injection hx with hx; exact .inl hx.symm
      · exact .inr hx
    · exact ⟨s, rfl, s.aliases, rfl, fun _ _ h => .inr h⟩
  obtain ⟨A, rfl, hA⟩ := g1
  rw [M.bind_ok h1]
  have h2 : setCard p.cardNumber a { s with aliases := A } = (.ok (), { s with aliases := A, cards := s.cards.set p.cardNumber a }) := rfl
  rw [M.bind_ok h2]
  have h3 : storeProfile a p { s with aliases := A, cards := s.cards.set p.cardNumber a } =
    (.ok (), { s with aliases := A, cards := s.cards.set p.cardNumber a, profiles := s.profiles.set a p }) := rfl
  rw [M.bind_ok h3]
  generalize hw : ({ s with aliases := A, cards := s.cards.set p.cardNumber a, profiles := s.profiles.set a p } : State) = w
  have hwp : w.profiles = s.profiles.set a p := by rw [← hw]
  have hwa : w.accounts = s.accounts := by rw [← hw]
  have hwm : w.params = s.params := by rw [← hw]
  have iw : Index w := by
    refine ⟨fun x b hx => ?_, fun k b hk => ?_⟩
    · rw [hwp, KV.get_set]
      split
      · exact ⟨_, rfl⟩
      · next hne =>
        rw [← hw] at hx
        rcases hA x b hx with h | h
        · exact absurd h hne
        · exact hi.nick x b h
    · rw [hwp, KV.get_set]
      rw [← hw] at hk
      simp only [KV.get_set] at hk
      split at hk
      · next hkc => injection hk with hk; rw [if_pos hk.symm]; exact ⟨p, rfl, fun _ => hkc.symm⟩
      · obtain ⟨q, hq, hqc⟩ := hi.card k b hk
        split
        · next hb =>
          subst hb
          refine ⟨p, rfl, fun hk0 => ?_⟩
          obtain ⟨m, hm, hmc⟩ := hn b q hq
          rw [ha] at hm
          injection hm with hm
          subst hm
          rw [hpc, ← hmc]
          exact hqc hk0
        · exact ⟨q, hq, hqc⟩
  have nw : Numbered w := by
    intro b q hq
    rw [hwp, KV.get_set] at hq
    rw [hwa, hwm]
    split at hq
    · next hb => injection hq with hq; subst hq hb; exact ⟨n, ha, hpc⟩
    · exact hn b q hq
  have pw : w.profiles.get a = some p := by rw [hwp, KV.get_set_self]
  -- from here on nothing changes but what other modules keep
  have q1 := Quiet.when (c := p.isActive s.now) (onReferral_quiet (quiet a)) w
  rw [M.bind_apply]
  rcases h4 : when (p.isActive s.now) (onReferral (quiet a)) w with ⟨r, v⟩
  rw [h4] at q1
  have nv : Numbered v := by
    intro b q hq
    rw [q1.profiles] at hq
    rw [q1.accounts, q1.params]
    exact nw b q hq
  have iv := q1.even.index iw
  cases r with
  | err => exact ⟨iv, nv⟩
  | panic => exact ⟨iv, nv⟩
  | ok u =>
    have pv : v.profiles.get a = some p := by rw [q1.profiles]; exact pw
    have hacc : v.accounts.has a = true := by rw [q1.accounts]; exact has_of_get (by rw [hwa]; exact ha)
    have ev : Even v (must (setProfile e a p) v).2 := by
      have := EvenAt.set e (a := a) (o := p) (p := p) rfl rfl v pv
      unfold must
      split
      · next t ht => rw [ht] at this; exact this
      · exact this
    have fv : (must (setProfile e a p) v).2.accounts = v.accounts ∧ (must (setProfile e a p) v).2.params = v.params := by
      have : (must (setProfile e a p) v).2 = (setProfile e a p v).2 := by
        unfold must
        split
        · next t ht => rw [ht]
        · rfl
      rw [this]
      rcases setProfile_same e a pv rfl rfl hacc with h | h
      · rw [h]; exact ⟨rfl, rfl⟩
      · rw [h]
        have := tellReferral_quiet e a (some p) p { v with profiles := v.profiles.set a p }
        exact ⟨this.accounts, this.params⟩
    refine ⟨ev.index iv, ?_⟩
    intro b q hq
    obtain ⟨q', hq', -, hc⟩ := ev.backward hq
    show ∃ m, (must (setProfile e a p) v).2.accounts.get b = some m ∧ q.cardNumber = m ^^^ (must (setProfile e a p) v).2.params.cardMagic
    rw [fv.1, fv.2, ← hc]
    exact nv b q' hq'

theorem importRecords_index (e : Env) (quiet : Addr → RefCall) (iterate : RefCall) (l : List (Addr × Profile)) {s : State}
    (hi : Index s) (hn : Numbered s) : Index (importRecords e quiet iterate l s).2 := by
  have : M.Preserves (fun s => Index s ∧ Numbered s) (importRecords e quiet iterate l) := by
    refine .bind (.forEach fun x _ => importRecord_index e quiet x.1 x.2) fun _ => ?_
    intro s hs
    have q := onReferral_quiet iterate s
    refine ⟨q.even.index hs.1, fun a p hp => ?_⟩
    rw [q.profiles] at hp
    rw [q.accounts, q.params]
    exact hs.2 a p hp
  exact (this s ⟨hi, hn⟩).1

/-! ### Executions -/

/-- No profile, no nickname, no card yet. -/
structure Blank (s : State) : Prop where
  profiles : s.profiles = KV.empty
  aliases : s.aliases = KV.empty
  cards : s.cards = KV.empty

/-- A chain that starts without profiles, or with those of a genesis file, and then executes anything. -/
inductive Grown : State → Prop where
  | start {s : State} (h : Blank s) : Grown s
  | imported {s : State} (e : Env) (quiet : Addr → RefCall) (iterate : RefCall) (l : List (Addr × Profile)) (h : Blank s) :
      Grown (importRecords e quiet iterate l s).2
  | step {s : State} (e : Env) (op : Op) (h : Grown s) : Grown (op.run e s)

theorem Blank.index {s : State} (h : Blank s) : Index s :=
  ⟨fun x a hx => (by rw [h.aliases, KV.get_empty] at hx; cases hx), fun c a hc => (by rw [h.cards, KV.get_empty] at hc; cases hc)⟩

theorem Grown.index {s : State} (h : Grown s) : Index s := by
  induction h with
  | start h => exact h.index
  | imported e quiet iterate l h =>
    exact importRecords_index e quiet iterate l h.index fun a p hp => (by rw [h.profiles, KV.get_empty] at hp; cases hp)
  | step e op _ ih => exact run_index e op ih

theorem shown_ne_crash {s : State} {x : Option Addr} (h : ∀ a, x = some a → ∃ p, s.profiles.get a = some p) : shown s x ≠ .crash := by
  cases x with
  | none => simp [shown]
  | some a =>
    obtain ⟨p, hp⟩ := h a rfl
    simp [shown, hp]

theorem shown_found {s : State} {x : Option Addr} {a : Addr} {p : Profile} : shown s x = .found a p ↔ x = some a ∧ s.profiles.get a = some p := by
  cases x with
  | none => simp [shown]
  | some b =>
    rcases hb : s.profiles.get b with _ | q
    · refine ⟨fun h => (by simp only [shown, hb] at h; cases h), ?_⟩
      rintro ⟨h, h'⟩
      injection h with h
      rw [← h, hb] at h'; cases h'
    · simp only [shown, hb, Answer.found.injEq, Option.some.injEq]
      constructor
      · rintro ⟨rfl, rfl⟩; exact ⟨rfl, hb⟩
      · rintro ⟨rfl, h⟩; rw [hb] at h; injection h with h; exact ⟨rfl, h⟩

/-- **C103, no crash.** Whatever happened on the chain, and whatever is asked for, the look-ups by nickname and by card number
answer; and what they show is the profile on record for the account they name. -/
theorem C103_answers {s : State} (hs : Grown s) (e : Env) (n : Text) (c : Nat) :
    queryNickname e s n ≠ .crash ∧ queryCard s c ≠ .crash ∧
    (∀ a p, queryNickname e s n = .found a p → queryAddress s a = some p) ∧
    (∀ a p, queryCard s c = .found a p → queryAddress s a = some p ∧ (c ≠ 0 → p.cardNumber = c)) := by
  have hi := hs.index
  refine ⟨shown_ne_crash fun a h => hi.nick _ a h, shown_ne_crash fun a h => ?_, fun a p h => (shown_found.1 h).2, fun a p h => ?_⟩
  · obtain ⟨p, hp, -⟩ := hi.card c a h
    exact ⟨p, hp⟩
  · obtain ⟨h1, h2⟩ := shown_found.1 h
    obtain ⟨q, hq, hqc⟩ := hi.card c a h1
    rw [h2] at hq
    injection hq with hq
    exact ⟨h2, by rw [hq]; exact hqc⟩

/-- Executions from a chain without profiles, by operations that satisfy `N`. -/
inductive Begun (T : TextOps) (N : Op → Prop) : State → Prop where
  | start {s : State} (h : Blank s) (ha : Accs s) : Begun T N s
  | step {s : State} (e : Env) (he : e.text = T) (op : Op) (hN : N op) (h : Begun T N s) : Begun T N (op.run e s)

theorem Begun.reachable {T : TextOps} {N : Op → Prop} {s : State} (h : Begun T N s) : Reachable T s := by
  induction h with
  | start h ha => exact .start ⟨h.profiles, ha⟩
  | step e he op _ _ ih => exact .step e he op ih

theorem Begun.grown {T : TextOps} {N : Op → Prop} {s : State} (h : Begun T N s) : Grown s := by
  induction h with
  | start h _ => exact .start h
  | step e _ op _ _ ih => exact .step e op ih

/-- **C103, card numbers.** The look-up by a card number other than zero shows the account that has this number, if there is one. -/
theorem C103_card {T : TextOps} (hT : TextOk T) {N : Op → Prop} {s : State} (hs : Begun T N s) (c : Nat) (hc : c ≠ 0) :
    (∀ a p, queryCard s c = .found a p ↔ s.profiles.get a = some p ∧ p.cardNumber = c) ∧
    (queryCard s c = .notFound ↔ ∀ a p, s.profiles.get a = some p → p.cardNumber ≠ c) := by
  have key : ∀ a p, queryCard s c = .found a p ↔ s.profiles.get a = some p ∧ p.cardNumber = c := by
    intro a p
    constructor
    · intro h
      obtain ⟨h1, h2⟩ := shown_found.1 h
      obtain ⟨q, hq, hqc⟩ := hs.grown.index.card c a h1
      rw [h2] at hq
      injection hq with hq
      exact ⟨h2, by rw [hq]; exact hqc hc⟩
    · rintro ⟨h1, rfl⟩
      exact shown_found.2 ⟨(C40_cards hT hs.reachable).2 a p h1 hc, h1⟩
  refine ⟨key, fun h a p hp hpc => ?_, fun h => ?_⟩
  · have := (key a p).2 ⟨hp, hpc⟩
    rw [h] at this; cases this
  · rcases hq : queryCard s c with _ | ⟨a, p⟩ | _
    · rfl
    · obtain ⟨h1, h2⟩ := (key a p).1 hq
      exact absurd h2 (h a p h1)
    · refine absurd hq (shown_ne_crash fun a h => ?_)
      obtain ⟨p, hp, -⟩ := hs.grown.index.card c a h
      exact ⟨p, hp⟩

/-! ### Nicknames without blanks around them -/

/-- The nicknames sent by an operation have no blanks around them. -/
def Op.Neat (T : TextOps) : Op → Prop
  | .createAccount _ _ _ p => T.trim (p.getD {}).nickname = (p.getD {}).nickname
  | .updateProfile _ us => ∀ n, Update.nickname n ∈ us → T.trim n = n
  | _ => True

/-- Nicknames are without blanks around them and entries of the index lead to their holders. -/
structure Exact (T : TextOps) (s : State) : Prop where
  neat : ∀ a p, s.profiles.get a = some p → T.trim p.nickname = p.nickname
  back : ∀ x a, s.aliases.get x = some a → ∃ p, s.profiles.get a = some p ∧ p.nickname ≠ [] ∧ T.lower p.nickname = x

theorem Even.exact {T : TextOps} {s t : State} (h : Even s t) (hx : Exact T s) : Exact T t := by
  refine ⟨fun a p hp => ?_, fun x a ha => ?_⟩
  · obtain ⟨q, hq, hn, -⟩ := h.backward hp
    rw [← hn]; exact hx.neat a q hq
  · rw [h.aliases] at ha
    obtain ⟨p, hp, h1, h2⟩ := hx.back x a ha
    obtain ⟨q, hq, hn, -⟩ := h.forward hp
    exact ⟨q, hq, by rw [hn]; exact h1, by rw [hn]; exact h2⟩

theorem setProfile_exact {T : TextOps} {e : Env} (he : e.text = T) {a : Addr} {p : Profile} {s t : State} {u : Unit}
    (h : setProfile e a p s = (.ok u, t)) (ha : s.accounts.has a = true) (ho : ∀ o, s.profiles.get a = some o → p.cardNumber = o.cardNumber)
    (hp : T.trim p.nickname = p.nickname) (hx : Exact T s) : Exact T t := by
  obtain ⟨A, -, q, hA⟩ := setProfile_ok h ha ho
  refine q.even.exact ⟨fun b r hr => ?_, fun x b hb => ?_⟩
  · simp only [KV.get_set] at hr
    split at hr
    · injection hr with hr; rw [← hr]; exact hp
    · exact hx.neat b r hr
  · simp only [KV.get_set]
    dsimp only at hb
    rcases hA with ⟨o, h1, h2, h3, -⟩ | ⟨-, hg⟩
    · rw [h3] at hb
      obtain ⟨r, hr, h4, h5⟩ := hx.back x b hb
      split
      · next hba =>
        subst hba
        rw [h1] at hr
        injection hr with hr
        subst hr
        exact ⟨p, rfl, by rw [← h2]; exact h4, by rw [← h2]; exact h5⟩
      · exact ⟨r, hr, h4, h5⟩
    · rw [hg, he, hp] at hb
      split at hb
      · next hc => injection hb with hb; rw [if_pos hb.symm]; exact ⟨p, rfl, hc.1, hc.2.symm⟩
      · split at hb
        · cases hb
        · next hc =>
          obtain ⟨r, hr, h4, h5⟩ := hx.back x b hb
          split
          · next hba => subst hba; exact absurd ⟨r, hr, h4, h5.symm⟩ hc
          · exact ⟨r, hr, h4, h5⟩

theorem foldl_neat {T : TextOps} (us : List Update) (h : ∀ n, Update.nickname n ∈ us → T.trim n = n) (p : Profile)
    (hp : T.trim p.nickname = p.nickname) : T.trim (us.foldl Update.apply p).nickname = (us.foldl Update.apply p).nickname := by
  induction us generalizing p with
  | nil => exact hp
  | cons u us ih =>
    refine ih (fun n hn => h n (by simp [hn])) (u.apply p) ?_
    cases u with
    | nickname n => exact h n (by simp)
    | _ => exact hp

theorem run_exact {T : TextOps} {e : Env} (he : e.text = T) (op : Op) (hop : op.Neat T) {s : State} (hi : Ids T s)
    (hx : Exact T s) : Exact T (op.run e s) := by
  rcases run_even e op s with ⟨c, a, r, p, rfl⟩ | ⟨a, us, rfl⟩ | h
  · rcases M.tx_cases (createAccount e c a r p) s with ⟨x, hxx⟩ | ⟨-, hxx⟩
    · obtain ⟨s1, s2, h0, q1, q2, h⟩ := createAccount_parts hxx
      have ev : Even s s2 := (q1.even.trans (t := s1) (⟨rfl, rfl, fun _ => rfl⟩ : Even s1 (newAccount a s1).2)).trans q2.even
      have hnone : s2.profiles.get a = none := by
        rcases hh : s2.profiles.get a with _ | o
        · rfl
        · obtain ⟨o', ho', -⟩ := ev.backward hh
          obtain ⟨n, hn, -⟩ := hi.cards a o' ho'
          rw [h0] at hn; cases hn
      refine setProfile_exact he h ?_ (fun o ho => by rw [hnone] at ho; cases ho) ?_ (ev.exact hx)
      · rw [q2.accounts]
        simp [newAccount, KV.has, KV.get_set_self]
      · exact hop
    · dsimp only [Op.run]; rw [hxx]; exact hx
  · rcases M.tx_cases (updateProfile e a us) s with ⟨x, hxx⟩ | ⟨-, hxx⟩
    · have h := hxx
      unfold updateProfile at h
      rw [M.errIf_bind_ok, M.errIf_bind_ok, M.get_bind_ok, M.orPanic_bind_ok] at h
      obtain ⟨-, -, o, ho, h⟩ := h
      obtain ⟨n, g1, -⟩ := hi.cards a o ho
      exact setProfile_exact he h (has_of_get g1) (fun o' ho' => by rw [ho] at ho'; cases ho'; exact (apply_foldl us o).1)
        (foldl_neat us hop o (hx.neat a o ho)) hx
    · dsimp only [Op.run]; rw [hxx]; exact hx
  · exact h.exact hx

theorem Begun.exact {T : TextOps} (hT : TextOk T) {s : State} (h : Begun T (Op.Neat T) s) : Exact T s := by
  induction h with
  | start h _ =>
    exact ⟨fun a p hp => (by rw [h.profiles, KV.get_empty] at hp; cases hp), fun x a hx => (by rw [h.aliases, KV.get_empty] at hx; cases hx)⟩
  | step e he op hN hb ih => exact run_exact he op hN (hb.reachable.ids hT) ih

/-- **C103, nicknames (partial).** As long as no nickname is sent with blanks around it, the look-up by nickname shows the account
that has this nickname, in whatever letter case, if there is one.  Missing: nicknames with blanks (`C103_wrong_name`). -/
theorem C103_nickname_partial {T : TextOps} (hT : TextOk T) {s : State} (hs : Begun T (Op.Neat T) s) (e : Env) (he : e.text = T) (n : Text) :
    (∀ a p, queryNickname e s n = .found a p ↔ s.profiles.get a = some p ∧ p.nickname ≠ [] ∧ T.lower p.nickname = T.lower n) ∧
    (queryNickname e s n = .notFound ↔ ∀ a p, s.profiles.get a = some p → p.nickname ≠ [] → T.lower p.nickname ≠ T.lower n) := by
  have hx := hs.exact hT
  have key : ∀ a p, queryNickname e s n = .found a p ↔ s.profiles.get a = some p ∧ p.nickname ≠ [] ∧ T.lower p.nickname = T.lower n := by
    intro a p
    constructor
    · intro h
      obtain ⟨h1, h2⟩ := shown_found.1 h
      obtain ⟨q, hq, h3, h4⟩ := hx.back _ a h1
      rw [h2] at hq
      injection hq with hq
      rw [he] at h4
      exact ⟨h2, by rw [hq]; exact h3, by rw [hq]; exact h4⟩
    · rintro ⟨h1, h2, h3⟩
      have hn := hx.neat a p h1
      exact shown_found.2 ⟨(C39_nicknames_partial hT hs.reachable).2 e a p n he h1 (by rw [hn]; exact h2) (by rw [hn]; exact h3.symm), h1⟩
  refine ⟨key, fun h a p hp h1 h2 => ?_, fun h => ?_⟩
  · have := (key a p).2 ⟨hp, h1, h2⟩
    rw [h] at this; cases this
  · rcases hq : queryNickname e s n with _ | ⟨a, p⟩ | _
    · rfl
    · obtain ⟨h1, h2, h3⟩ := (key a p).1 hq
      exact absurd h3 (h a p h1 h2)
    · exact absurd hq (C103_answers hs.grown e n 0).1

/-! ### Cases -/

theorem exampleBlank : Blank exampleState := ⟨rfl, rfl, rfl⟩

theorem runAll_begun (N : Op → Prop) (l : List Op) (hN : ∀ op ∈ l, N op) {s : State} (h : Begun ascii N s) :
    Begun ascii N (Op.runAll exampleEnv l s) := by
  induction l generalizing s with
  | nil => exact h
  | cons op l ih => exact ih (fun o ho => hN o (by simp [ho])) (.step exampleEnv rfl op (hN op (by simp)) h)

/-- **C103 is false as stated for nicknames**: account 7 was created as " bob" and is called "carol" now; who asks for "bob" is
shown carol's profile. -/
theorem C103_wrong_name : ∃ s p, Begun ascii (fun _ => True) s ∧ queryNickname exampleEnv s bob = .found 7 p ∧ p.nickname = carol :=
  ⟨_, { nickname := carol, cardNumber := 1 ^^^ 0x1A21A4B61B },
    runAll_begun _ [.createAccount 5 7 5 (some { nickname := bobBlank }), .updateProfile 7 [.nickname carol]] (fun _ _ => trivial)
      (.start exampleBlank exampleStart.accs), by decide +kernel, rfl⟩

/-- Two accounts, one of which changes its nickname. -/
def called : List Op :=
  [.createAccount 5 7 5 (some { nickname := bob }), .createAccount 5 6 5 (some { nickname := carol }), .updateProfile 6 [.nickname []]]

theorem called_begun : Begun ascii (Op.Neat ascii) (Op.runAll exampleEnv called exampleState) :=
  runAll_begun _ _ (by
    intro op hop
    simp only [called, List.mem_cons, List.not_mem_nil, or_false] at hop
    rcases hop with rfl | rfl | rfl
    · show ascii.trim bob = bob; decide +kernel
    · show ascii.trim carol = carol; decide +kernel
    · intro n hn
      simp only [List.mem_cons, List.not_mem_nil, or_false, Update.nickname.injEq] at hn
      subst hn; decide +kernel) (.start exampleBlank exampleStart.accs)

-- found in another letter case and by the card; a nickname given up is not found; an unknown card is not found
example : queryNickname exampleEnv (Op.runAll exampleEnv called exampleState) bobUpper = .found 7 { nickname := bob, cardNumber := 1 ^^^ 0x1A21A4B61B } ∧
    queryCard (Op.runAll exampleEnv called exampleState) (1 ^^^ 0x1A21A4B61B) = .found 7 { nickname := bob, cardNumber := 1 ^^^ 0x1A21A4B61B } ∧
    queryNickname exampleEnv (Op.runAll exampleEnv called exampleState) carol = .notFound ∧
    queryCard (Op.runAll exampleEnv called exampleState) 77 = .notFound := by
  decide +kernel

/-! ### C105 -/

/-- **C105 (partial).** As long as no nickname is sent with blanks around it, an account keeps one nickname at most from others, the one it has.
Missing: nicknames with blanks (`C105_hoard_violation`). -/
theorem C105_one_each_partial {T : TextOps} (hT : TextOk T) {s : State} (hs : Begun T (Op.Neat T) s) (e : Env) (he : e.text = T) (a : Addr)
    (m n : Text) (hm : byNickname e s m = some a) (hn : byNickname e s n = some a) :
    T.lower m = T.lower n ∧ ∃ p, s.profiles.get a = some p ∧ T.lower p.nickname = T.lower n := by
  have hx := hs.exact hT
  unfold byNickname at hm hn
  rw [he] at hm hn
  obtain ⟨p, hp, -, h1⟩ := hx.back _ a hm
  obtain ⟨q, hq, -, h2⟩ := hx.back _ a hn
  rw [hp] at hq
  injection hq with hq
  subst hq
  exact ⟨h1.symm.trans h2, p, hp, h2⟩

/-- Account 7 renames itself twice, each time with a tab before the name, and gives up its nickname. -/
def hoard : List Op :=
  [.createAccount 5 7 5 none, .updateProfile 7 [.nickname (9 :: bob)], .updateProfile 7 [.nickname (9 :: carol)], .updateProfile 7 [.nickname []]]

/-- **C105 is false as stated**: an account without nickname keeps two from others, and nobody can be created with one of them though another
nickname would do. -/
theorem C105_hoard_violation :
    let s := Op.runAll exampleEnv hoard exampleState
    Begun ascii (fun _ => True) s ∧ byNickname exampleEnv s bob = some 7 ∧ byNickname exampleEnv s carol = some 7 ∧
      (s.profiles.get 7).map Profile.nickname = some [] ∧
      (Op.run exampleEnv s (.createAccount 5 6 5 (some { nickname := bob }))).profiles.get 6 = none ∧
      ((Op.run exampleEnv s (.createAccount 5 6 5 (some { nickname := [100, 97, 118, 101] }))).profiles.get 6).isSome = true :=
  ⟨runAll_begun _ _ (fun _ _ => trivial) (.start exampleBlank exampleStart.accs), by decide +kernel, by decide +kernel, by decide +kernel,
    by decide +kernel, by decide +kernel⟩

-- an instance of `C105_one_each_partial`
example : byNickname exampleEnv (Op.runAll exampleEnv called exampleState) bob = some 7 ∧
    byNickname exampleEnv (Op.runAll exampleEnv called exampleState) bobUpper = some 7 := by decide +kernel

end Verif.Profile
