import Verif.Profile.Owner

/-! Property C62: the referral module is told when subscriptions start and end. -/
namespace Verif.Profile
open Verif.Util Verif.Bank

/-- Does the subscription of `a` run? -/
def subscribed (s : State) (a : Addr) : Prop := ∃ p u, s.profiles.get a = some p ∧ p.activeUntil = some u ∧ s.now < u

instance (s : State) (a : Addr) : Decidable (subscribed s a) :=
  decidable_of_iff ((s.profiles.get a).any (fun p => p.activeUntil.any (fun u => decide (s.now < u))) = true) <| by
    unfold subscribed
    simp only [Option.any_eq_true, decide_eq_true_eq]
    constructor
    · rintro ⟨p, h1, u, h2, h3⟩; exact ⟨p, u, h1, h2, h3⟩
    · rintro ⟨p, u, h1, h2, h3⟩; exact ⟨p, h1, u, h2, h3⟩

theorem running_iff {s : State} {a : Addr} : decide (subscribed s a) = ((s.profiles.get a).map (·.isActive s.now)).getD false := by
  rw [Bool.eq_iff_iff, decide_eq_true_eq]
  unfold subscribed
  rcases h : s.profiles.get a with _ | p
  · simp
  · simp only [Option.map_some, Option.getD_some]
    unfold Profile.isActive
    constructor
    · rintro ⟨q, u, h1, h2, h3⟩
      injection h1 with h1; subst h1
      rw [h2]; simpa using h3
    · intro h1
      rcases hu : p.activeUntil with _ | u
      · rw [hu] at h1; simp at h1
      · rw [hu] at h1; exact ⟨p, u, rfl, hu, by simpa using h1⟩

/-- Whoever's subscription starts or ends by a successful run of `m`: the referral module was told so and agreed. -/
def Tells (e : Env) {α : Type} (m : M State α) : Prop :=
  ∀ s x t, m s = (.ok x, t) → ∀ b, ¬ (subscribed t b ↔ subscribed s b) → (e.setActive b (decide (subscribed t b))).1 = .ok ()

theorem Same.subscribed {s t : State} (h : Same s t) (b : Addr) : subscribed t b ↔ subscribed s b := by
  unfold Verif.Profile.subscribed; rw [h.profiles, h.now]

theorem Tells.bind {e : Env} {α β : Type} {m : M State α} {f : α → M State β} (hm : ∀ s x t, m s = (.ok x, t) → ∀ b, subscribed t b ↔ subscribed s b)
    (hf : ∀ x, Tells e (f x)) : Tells e (m >>= f) := by
  intro s x t h b hb
  rw [M.bind_ok_iff] at h
  obtain ⟨y, s1, h1, h2⟩ := h
  have := hm s y s1 h1 b
  exact hf y s1 x t h2 b (by rw [this]; exact hb)

theorem Quiet.still {α : Type} {m : M State α} (h : Quiet m) : ∀ s x t, m s = (.ok x, t) → ∀ b, subscribed t b ↔ subscribed s b := by
  intro s x t hm b
  have := h s
  rw [hm] at this
  exact this.subscribed b

theorem Tells.quiet {e : Env} {α : Type} {m : M State α} (h : Quiet m) : Tells e m := fun s x t hm b hb => absurd (h.still s x t hm b) hb

theorem newAccount_still (a : Addr) : ∀ s x t, newAccount a s = (.ok x, t) → ∀ b, subscribed t b ↔ subscribed s b := by
  intro s x t h b
  unfold newAccount at h
  simp only [Prod.mk.injEq] at h
  rw [← h.2]; exact Iff.rfl

theorem setProfile_tells (e : Env) (a : Addr) (p : Profile) : Tells e (setProfile e a p) := by
  intro s x t h b hb
  have hstores := setProfile_stores e a p s
  rw [h] at hstores
  unfold setProfile at h
  rw [M.get_bind_ok, M.errIf_bind_ok] at h
  obtain ⟨h0, h⟩ := h
  rw [M.bind_ok_iff] at h
  obtain ⟨u1, s1, h1, h⟩ := h
  have f1 := updateAlias_framed e a (s.profiles.get a) p.nickname s
  rw [h1] at f1
  rw [M.bind_ok_iff] at h
  obtain ⟨c, s2, h2, h⟩ := h
  have f2 := updateCard_framed a (s.profiles.get a) p.cardNumber s1
  rw [h2] at f2
  have h3 : storeProfile a { p with cardNumber := c } s2 = (.ok (), { s2 with profiles := s2.profiles.set a { p with cardNumber := c } }) := rfl
  rw [M.bind_ok h3, M.bind_ok_iff] at h
  obtain ⟨u3, s3, h3, h⟩ := h
  have f3 := ensureAccount_framed a { s2 with profiles := s2.profiles.set a { p with cardNumber := c } }
  rw [h3] at f3
  have f4 := tellReferral_quiet e a (s.profiles.get a) p s3
  rw [h] at f4
  have hp : t.profiles = s.profiles.set a { p with cardNumber := c } := by
    rw [f4.profiles, f3.profiles]
    show s2.profiles.set a _ = _
    rw [f2.profiles, f1.profiles]
  have hn : t.now = s.now := f4.now.trans (f3.now.trans (f2.now.trans f1.now))
  have hn3 : s3.now = s.now := f3.now.trans (f2.now.trans f1.now)
  by_cases hba : b = a
  · subst hba
    have ht : decide (subscribed t b) = p.isActive s.now := by
      rw [running_iff, hp, KV.get_set_self, hn]; rfl
    have hs : decide (subscribed s b) = ((s.profiles.get b).map (·.isActive s.now)).getD false := running_iff
    have hne : p.isActive s.now ≠ ((s.profiles.get b).map (·.isActive s.now)).getD false := by
      rw [← ht, ← hs]
      intro hc
      refine hb ?_
      have := decide_eq_decide.1 hc
      exact this
    rw [ht]
    unfold tellReferral at h
    rw [M.get_bind_ok, hn3, if_pos hne] at h
    unfold onReferral at h
    rw [Prod.mk.injEq] at h
    exact h.1
  · refine absurd ?_ hb
    unfold subscribed
    rw [hp, hn]
    simp only [KV.get_set, if_neg hba]

theorem store_tells {s : State} {a : Addr} {o p : Profile} (ho : s.profiles.get a = some o) (hu : p.activeUntil = o.activeUntil) (b : Addr) :
    subscribed { s with profiles := s.profiles.set a p } b ↔ subscribed s b := by
  unfold subscribed
  simp only [KV.get_set]
  by_cases hb : b = a
  · subst hb
    rw [if_pos rfl, ho]
    constructor
    · rintro ⟨q, u, h1, h2, h3⟩
      injection h1 with h1; subst h1
      exact ⟨o, u, rfl, by rw [← hu]; exact h2, h3⟩
    · rintro ⟨q, u, h1, h2, h3⟩
      injection h1 with h1; subst h1
      exact ⟨p, u, rfl, by rw [hu]; exact h2, h3⟩
  · rw [if_neg hb]

theorem payTariff_tells (e : Env) (a : Addr) (g : Nat) (auto : Bool) : Tells e (payTariff e a g auto) :=
  .bind Quiet.get.still fun _ => .bind (Quiet.orPanic _).still fun _ => .bind (Quiet.errIf _).still fun _ =>
    .bind (Quiet.orPanic _).still fun _ => .bind (comeBack_quiet _ _).still fun _ => .bind (payTotal_quiet _ _ _ _).still fun _ =>
    .bind (Quiet.orPanic _).still fun _ => .bind (schedule_quiet _ _ _).still fun _ => setProfile_tells e a _

theorem tx_tells {e : Env} {α : Type} {m : M State α} (h : Tells e m) {s : State} {b : Addr} (hb : ¬ (subscribed (M.tx m s) b ↔ subscribed s b)) :
    (e.setActive b (decide (subscribed (M.tx m s) b))).1 = .ok () := by
  rcases M.tx_cases m s with ⟨x, hx⟩ | ⟨-, hx⟩
  · exact h s x _ hx b hb
  · rw [hx] at hb; exact absurd Iff.rfl hb

/-- A message: not a block, and of this module. -/
def Op.message : Op → Prop
  | .block .. | .foreign .. => False
  | _ => True

/-- **C62, messages.** If a message starts or ends the subscription of anybody, the referral module was told the new state of exactly
this account, and agreed. -/
theorem C62_messages (e : Env) (op : Op) (hop : op.message) (s : State) (b : Addr) (hb : ¬ (subscribed (op.run e s) b ↔ subscribed s b)) :
    (e.setActive b (decide (subscribed (op.run e s) b))).1 = .ok () := by
  have setp : ∀ (a : Addr) (v : Nat) (f : Profile → Profile) (l : List Addr) (x : Addr), (∀ p, (f p).activeUntil = p.activeUntil) →
      Tells e (M.get >>= fun s : State => M.errIf (!l.contains x) >>= fun _ => match s.profiles.get a with
        | none => M.err
        | some p => storeProfile a (f p)) := by
    intro a v f l x hf s y t h b hb
    rw [M.get_bind_ok, M.errIf_bind_ok] at h
    obtain ⟨-, h⟩ := h
    rcases ho : s.profiles.get a with _ | o
    · rw [ho] at h; simp [M.err] at h
    · rw [ho] at h
      dsimp only at h
      unfold storeProfile at h
      rw [M.modify_apply, Prod.mk.injEq] at h
      rw [← h.2] at hb
      exact absurd (store_tells ho (hf o) b) hb
  cases op with
  | createAccount c a r p =>
    exact tx_tells (.bind Quiet.get.still fun _ => .bind (Quiet.errIf _).still fun _ => .bind (Quiet.when (chargeFee_quiet _ _ _)).still fun _ =>
      .bind (newAccount_still a) fun _ => .bind (onReferral_quiet _).still fun _ => .bind Quiet.get.still fun _ => setProfile_tells e a _) hb
  | updateProfile a us =>
    exact tx_tells (.bind (Quiet.errIf _).still fun _ => .bind (Quiet.errIf _).still fun _ => .bind Quiet.get.still fun _ =>
      .bind (Quiet.orPanic _).still fun _ => setProfile_tells e a _) hb
  | setStorageCurrent x a v =>
    have : Tells e (setStorageCurrent x a v) := fun s y t h b hb => setp a v (fun p => { p with storageCurrent := u64 v }) s.params.storageSigners x (fun _ => Eq.refl _) s y t h b hb
    exact tx_tells this hb
  | setVpnCurrent x a v =>
    have : Tells e (setVpnCurrent x a v) := fun s y t h b hb => setp a v (fun p => { p with vpnCurrent := u64 v }) s.params.vpnSigners x (fun _ => Eq.refl _) s y t h b hb
    exact tx_tells this hb
  | setRate x v =>
    have : Tells e (setRate x v) := by
      intro s y t h b hb
      unfold setRate at h
      rw [M.get_bind_ok, M.errIf_bind_ok, M.panicIf_bind_ok, M.modify_apply, Prod.mk.injEq] at h
      rw [← h.2.2.2] at hb
      exact absurd Iff.rfl hb
    exact tx_tells this hb
  | setParams p =>
    have : Tells e (setParams p) := by
      intro s y t h b hb
      unfold setParams at h
      rw [M.get_bind_ok, M.panicIf_bind_ok, M.modify_apply, Prod.mk.injEq] at h
      rw [← h.2.2] at hb
      exact absurd Iff.rfl hb
    exact tx_tells this hb
  | payTariff a g => exact tx_tells (payTariff_tells e a g false) hb
  | buyStorage a g =>
    exact tx_tells (.bind (Quiet.errIf _).still fun _ => .bind Quiet.get.still fun _ => .bind (Quiet.orPanic _).still fun _ =>
      .bind (Quiet.errIf _).still fun _ => .bind (Quiet.orPanic _).still fun _ => .bind (Quiet.orPanic _).still fun _ =>
      .bind (Quiet.panicIf _).still fun _ => .bind (paySplit_quiet _ _ _).still fun _ => setProfile_tells e a _) hb
  | buyIm a g =>
    refine tx_tells (.bind (Quiet.errIf _).still fun _ => .bind Quiet.get.still fun _ => .bind (Quiet.orPanic _).still fun _ =>
      .bind (Quiet.orPanic _).still fun _ => .bind (Quiet.orPanic _).still fun _ =>
      .bind (Quiet.panicIf _).still fun _ => .bind (paySplit_quiet _ _ _).still fun _ => ?_) hb
    split
    · exact setProfile_tells e a _
    · exact .bind (schedule_quiet _ _ _).still fun _ => setProfile_tells e a _
  | buyVpn a g =>
    exact tx_tells (.bind (Quiet.errIf _).still fun _ => .bind Quiet.get.still fun _ => .bind (Quiet.orPanic _).still fun _ =>
      .bind (Quiet.errIf _).still fun _ => .bind (Quiet.orPanic _).still fun _ => .bind (Quiet.orPanic _).still fun _ =>
      .bind (paySplit_quiet _ _ _).still fun _ => setProfile_tells e a _) hb
  | giveStorageUp a g =>
    exact tx_tells (.bind (Quiet.errIf _).still fun _ => .bind Quiet.get.still fun _ => .bind (Quiet.orPanic _).still fun _ =>
      .bind (Quiet.errIf _).still fun _ => .bind (Quiet.errIf _).still fun _ => setProfile_tells e a _) hb
  | giveImUp a g =>
    refine tx_tells (.bind Quiet.get.still fun _ => .bind (Quiet.orPanic _).still fun _ => .bind (Quiet.errIf _).still fun _ => ?_) hb
    split
    · exact .bind (deleteIm_quiet _ _).still fun _ => setProfile_tells e a _
    · exact setProfile_tells e a _
  | prolongIm a =>
    exact tx_tells (.bind Quiet.get.still fun _ => .bind (Quiet.orPanic _).still fun _ => .bind (prolong_quiet _ _ _).still fun _ =>
      setProfile_tells e a _) hb
  | foreign f => exact hop.elim
  | block e' f now => exact hop.elim

/-- **C62, ends.** When the task at the end of a subscription finds it ended and it is not to be paid automatically, or the payment is
refused, the referral module is told that the account is no longer active; the outcome of the task is its answer. -/
theorem C62_ends (e : Env) (a : Addr) (s : State) (o : Profile) (ho : s.profiles.get a = some o) (hr : ¬ subscribed s a)
    (hpay : o.autoPay = false ∨ (payTariff e a 0 true s).1 = .err) :
    ∃ w, (w = s ∨ w = (payTariff e a 0 true s).2) ∧ (monthly e a s).1 = (e.setActive a false).1 ∧
      (monthly e a s).2 = { w with sched := Schedule.execReqs w.sched ((e.setActive a false).2.filter fun r => hookOf r ≠ refreshHook ∧ hookOf r ≠ refreshImHook) } := by
  have hna : o.isActive s.now = false := by
    have : decide (subscribed s a) = o.isActive s.now := by rw [running_iff, ho]; rfl
    rw [← this]; simpa using hr
  have hm : monthly e a s = (if o.autoPay = true then onErr (payTariff e a 0 true) (onReferral (e.setActive a false)) else onReferral (e.setActive a false)) s := by
    unfold monthly
    rw [M.bind_ok (M.get_apply s), ho, M.bind_ok (M.orPanic_some o s), if_neg (by simp [hna])]
  by_cases ha : o.autoPay = true
  · rw [if_pos ha] at hm
    rcases hpay with hpay | hpay
    · rw [ha] at hpay; cases hpay
    · unfold onErr at hm
      rcases hp : payTariff e a 0 true s with ⟨r, w⟩
      rw [hp] at hm hpay
      dsimp only at hpay
      subst hpay
      exact ⟨w, .inr rfl, by rw [hm]; rfl, by rw [hm]; rfl⟩
  · rw [if_neg ha] at hm
    exact ⟨s, .inl rfl, by rw [hm]; rfl, by rw [hm]; rfl⟩

/-- **C62, renewals.** If the automatic payment of the task renews a subscription that had ended, the referral module was told and agreed. -/
theorem C62_renewals (e : Env) (a : Addr) (s : State) (hr : ¬ subscribed s a) (hpay : (payTariff e a 0 true s).1 = .ok ())
    (h : subscribed (payTariff e a 0 true s).2 a) : (e.setActive a true).1 = .ok () := by
  have := payTariff_tells e a 0 true s () (payTariff e a 0 true s).2 (Prod.ext hpay rfl) a (fun hc => hr (hc.1 h))
  rw [decide_eq_true h] at this
  exact this

/-- **C62, otherwise silent.** Storing a profile that does not start or end a subscription does not depend on the referral module. -/
theorem C62_silent (e : Env) (f : Addr → Bool → RefCall) (a : Addr) (p : Profile) (s : State)
    (h : (∃ u, p.activeUntil = some u ∧ s.now < u) ↔ subscribed s a) : setProfile { e with setActive := f } a p s = setProfile e a p s := by
  have hp : p.isActive s.now = ((s.profiles.get a).map (·.isActive s.now)).getD false := by
    rw [← running_iff, Bool.eq_iff_iff, decide_eq_true_eq, ← h]
    unfold Profile.isActive
    rcases p.activeUntil with _ | u
    · simp
    · simp
  have tell : ∀ (e' : Env) (s' : State), s'.now = s.now → tellReferral e' a (s.profiles.get a) p s' = (.ok (), s') := by
    intro e' s' hn
    unfold tellReferral
    rw [M.bind_ok (M.get_apply s'), hn, if_neg (by simpa using hp)]
    rfl
  unfold setProfile
  rw [M.bind_ok (M.get_apply s), M.bind_ok (M.get_apply s)]
  have hok : nicknameOk { e with setActive := f } s a (e.text.trim p.nickname) = nicknameOk e s a (e.text.trim p.nickname) := rfl
  dsimp only
  rw [hok]
  rw [errIf_cases, errIf_cases]
  split
  · rfl
  · have hal : updateAlias { e with setActive := f } a (s.profiles.get a) p.nickname = updateAlias e a (s.profiles.get a) p.nickname := rfl
    rw [hal]
    have f1 := updateAlias_framed e a (s.profiles.get a) p.nickname s
    rcases h1 : updateAlias e a (s.profiles.get a) p.nickname s with ⟨r1, s1⟩
    rw [h1] at f1
    cases r1 with
    | err => rw [M.bind_err h1, M.bind_err h1]
    | panic => rw [M.bind_panic h1, M.bind_panic h1]
    | ok x1 =>
      rw [M.bind_ok h1, M.bind_ok h1]
      have f2 := updateCard_framed a (s.profiles.get a) p.cardNumber s1
      rcases h2 : updateCard a (s.profiles.get a) p.cardNumber s1 with ⟨r2, s2⟩
      rw [h2] at f2
      cases r2 with
      | err => rw [M.bind_err h2, M.bind_err h2]
      | panic => rw [M.bind_panic h2, M.bind_panic h2]
      | ok c =>
        rw [M.bind_ok h2, M.bind_ok h2]
        have h3 : storeProfile a { p with cardNumber := c } s2 = (.ok (), { s2 with profiles := s2.profiles.set a { p with cardNumber := c } }) := rfl
        rw [M.bind_ok h3, M.bind_ok h3]
        have f3 := ensureAccount_framed a { s2 with profiles := s2.profiles.set a { p with cardNumber := c } }
        rcases h4 : ensureAccount a { s2 with profiles := s2.profiles.set a { p with cardNumber := c } } with ⟨r4, s4⟩
        rw [h4] at f3
        cases r4 with
        | err => rw [M.bind_err h4, M.bind_err h4]
        | panic => rw [M.bind_panic h4, M.bind_panic h4]
        | ok x4 =>
          have hn : s4.now = s.now := f3.now.trans (f2.now.trans f1.now)
          rw [M.bind_ok h4, M.bind_ok h4, tell _ _ hn, tell _ _ hn]

/-- A referral module that refuses to activate account 7, and one that refuses to deactivate it. -/
def noStart : Env := { exampleEnv with setActive := fun a v => if a = 7 ∧ v = true then (.panic, []) else (.ok (), []) }
def noEnd : Env := { exampleEnv with setActive := fun a v => if a = 7 ∧ v = false then (.panic, []) else (.ok (), []) }

/-- The payment starts the subscription of account 7 and needs the consent of the referral module; a second payment does not. -/
example : ¬ subscribed (Op.runAll exampleEnv [.createAccount 5 7 5 none] exampleState) 7 ∧
    subscribed (Op.runAll exampleEnv paidOnce exampleState) 7 ∧
    (payTariff noStart 7 0 false (Op.runAll exampleEnv [.createAccount 5 7 5 none] exampleState)).1 = .panic ∧
    (payTariff noEnd 7 0 false (Op.runAll exampleEnv [.createAccount 5 7 5 none] exampleState)).1 = .ok () ∧
    (payTariff noStart 7 0 false (Op.runAll exampleEnv paidOnce exampleState)).1 = .ok () := by
  decide +kernel

/-- The task at the end of the month: not paid automatically, account 7 is declared inactive. -/
example : ¬ subscribed { Op.runAll exampleEnv paidOnce exampleState with now := 1000 + exampleMonth } 7 ∧
    (monthly noEnd 7 { Op.runAll exampleEnv paidOnce exampleState with now := 1000 + exampleMonth }).1 = .panic ∧
    (monthly noStart 7 { Op.runAll exampleEnv paidOnce exampleState with now := 1000 + exampleMonth }).1 = .ok () := by
  decide +kernel

end Verif.Profile
