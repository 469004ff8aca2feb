import Verif.Bank.Spare
import Verif.Profile.Owner

/-! Property C100, second part: whom the profile module charges. -/
namespace Verif.Profile
open Verif.Util Verif.Bank
open Verif.Schedule (Pending)

/-- Where the bank is. -/
abbrev bankOf : State → Bank.State := State.bank

variable {W : Addr → Denom → Prop}

theorem onBank_harmless {α : Type} {m : M Bank.State α} (h : Harmless id W m) : Harmless bankOf W (onBank m) := fun s => h s.bank

theorem onSched_harmless (r : Schedule.Req) : Harmless bankOf W (onSched r) := by
  refine .of_same fun s => ?_
  unfold onSched
  cases r.exec? s.sched <;> rfl

theorem onReferral_harmless (c : RefCall) : Harmless bankOf W (onReferral c) := .of_same fun _ => rfl

theorem when_harmless {c : Bool} {m : M State Unit} (h : Harmless bankOf W m) : Harmless bankOf W (when c m) := by
  unfold when
  split
  · exact h
  · exact .pure _

theorem onErr_harmless {α : Type} {m h : M State α} (hm : Harmless bankOf W m) (hh : Harmless bankOf W h) : Harmless bankOf W (onErr m h) := by
  intro s
  have := hm s
  unfold onErr
  rcases hs : m s with ⟨r, t⟩
  rw [hs] at this
  cases r with
  | ok x => exact this
  | err => exact this.trans (hh t)
  | panic => exact this

theorem chargeFee_harmless (e : Env) {a : Addr} (h : W a .main) (x : Int) : Harmless bankOf W (chargeFee e a x) :=
  .bind (.panicIf _) fun _ => onBank_harmless (sendCoins_harmless _ (ofMain_only h) _)

theorem updateAlias_harmless (e : Env) {a : Addr} {old : Option Profile} {raw : Text} (h : W a .main ∨ ∀ o, old = some o → o.nickname = raw) :
    Harmless bankOf W (updateAlias e a old raw) := by
  unfold updateAlias
  dsimp only
  split
  · next o =>
    split
    · next hn =>
      rcases h with h | h
      · exact .bind (when_harmless (.modify fun _ => rfl)) fun _ => when_harmless (.bind (chargeFee_harmless e h _) fun _ => .modify fun _ => rfl)
      · exact absurd (h o rfl) hn
    · exact .pure _
  · exact when_harmless (.modify fun _ => rfl)

theorem updateCard_harmless (a : Addr) (old : Option Profile) (c : Nat) : Harmless bankOf W (updateCard a old c) := by
  unfold updateCard
  split
  · split
    · exact .bind (when_harmless (.bind (when_harmless (.modify fun _ => rfl)) fun _ => .modify fun _ => rfl)) fun _ => .pure _
    · exact .pure _
  · exact .bind (when_harmless (.modify fun _ => rfl)) fun _ => .pure _

theorem ensureAccount_harmless (a : Addr) : Harmless bankOf W (ensureAccount a) := by
  refine .bind .get fun s => ?_
  split
  · exact .pure _
  · exact .bind (.of_same fun _ => rfl) fun _ => .pure _

theorem tellReferral_harmless (e : Env) (a : Addr) (old : Option Profile) (p : Profile) : Harmless bankOf W (tellReferral e a old p) := by
  refine .bind .get fun s => ?_
  split
  · exact onReferral_harmless _
  · exact .pure _

/-- Saving a profile costs its owner main coins, and only if the nickname changes. -/
theorem setProfile_unharmed (e : Env) {a : Addr} {p : Profile} {s : State} (h : W a .main ∨ ∀ o, s.profiles.get a = some o → o.nickname = p.nickname) :
    Unharmed W s.bank (setProfile e a p s).2.bank := by
  have : Harmless bankOf W (M.errIf (!nicknameOk e s a (e.text.trim p.nickname)) >>= fun _ =>
      updateAlias e a (s.profiles.get a) p.nickname >>= fun _ => updateCard a (s.profiles.get a) p.cardNumber >>= fun c =>
      storeProfile a { p with cardNumber := c } >>= fun _ => ensureAccount a >>= fun _ => tellReferral e a (s.profiles.get a) p) :=
    .bind (.errIf _) fun _ => .bind (updateAlias_harmless e h) fun _ => .bind (updateCard_harmless _ _ _) fun _ =>
      .bind (.modify fun _ => rfl) fun _ => .bind (ensureAccount_harmless a) fun _ => tellReferral_harmless e a _ p
  exact this s

theorem setProfile_harmless (e : Env) {a : Addr} (h : W a .main) (p : Profile) : Harmless bankOf W (setProfile e a p) :=
  fun _ => setProfile_unharmed e (.inl h)

theorem comeBack_harmless (e : Env) (a : Addr) : Harmless bankOf W (comeBack e a) := by
  unfold comeBack
  split
  · exact .err
  · exact onReferral_harmless _
  · exact .pure _

theorem payTotal_harmless (e : Env) {a : Addr} (h : W a .main) (x y : Int) : Harmless bankOf W (payTotal e a x y) := by
  refine .bind (.panicIf _) fun _ => .bind (.panicIf _) fun _ => .bind (.panicIf _) fun _ =>
    onBank_harmless (inputOutputCoins_harmless _ (fun i hi d hd => ?_) _)
  obtain rfl := List.mem_singleton.1 hi
  exact ofMain_only h d hd

theorem paySplit_harmless (e : Env) {a : Addr} (h : W a .main) (x : Int) : Harmless bankOf W (paySplit e a x) :=
  .bind (.panicIf _) fun _ => .bind (onBank_harmless (payTxFee_harmless _ h _)) fun _ => .bind (.panicIf _) fun _ =>
    onBank_harmless (sendCoins_harmless _ (ofMain_only h) _)

theorem payTariff_harmless (e : Env) {a : Addr} (h : W a .main) (g : Nat) (auto : Bool) : Harmless bankOf W (payTariff e a g auto) :=
  .bind .get fun _ => .bind (.orPanic _) fun _ => .bind (.errIf _) fun _ => .bind (.orPanic _) fun _ => .bind (comeBack_harmless e a) fun _ =>
    .bind (payTotal_harmless e h _ _) fun _ => .bind (.orPanic _) fun _ => .bind (onSched_harmless _) fun _ => setProfile_harmless e h _

theorem prolong_harmless (e : Env) {a : Addr} (h : W a .main) (p : Profile) : Harmless bankOf W (prolong e a p) :=
  .bind (.errIf _) fun _ => .bind .get fun _ => .bind (.orPanic _) fun _ => .bind (.orPanic _) fun _ => .bind (.panicIf _) fun _ =>
    .bind (paySplit_harmless e h _) fun _ => .bind (onSched_harmless _) fun _ => .bind (onSched_harmless _) fun _ => .pure _

theorem buyStorage_harmless (e : Env) {a : Addr} (h : W a .main) (g : Nat) : Harmless bankOf W (buyStorage e a g) :=
  .bind (.errIf _) fun _ => .bind .get fun _ => .bind (.orPanic _) fun _ => .bind (.errIf _) fun _ => .bind (.orPanic _) fun _ =>
    .bind (.orPanic _) fun _ => .bind (.panicIf _) fun _ => .bind (paySplit_harmless e h _) fun _ => setProfile_harmless e h _

theorem buyIm_harmless (e : Env) {a : Addr} (h : W a .main) (g : Nat) : Harmless bankOf W (buyIm e a g) := by
  refine .bind (.errIf _) fun _ => .bind .get fun _ => .bind (.orPanic _) fun _ => .bind (.orPanic _) fun _ =>
    .bind (.orPanic _) fun _ => .bind (.panicIf _) fun _ => .bind (paySplit_harmless e h _) fun _ => ?_
  split
  · exact setProfile_harmless e h _
  · exact .bind (onSched_harmless _) fun _ => setProfile_harmless e h _

theorem buyVpn_harmless (e : Env) {a : Addr} (h : W a .main) (g : Nat) : Harmless bankOf W (buyVpn e a g) :=
  .bind (.errIf _) fun _ => .bind .get fun _ => .bind (.orPanic _) fun _ => .bind (.errIf _) fun _ => .bind (.orPanic _) fun _ =>
    .bind (.orPanic _) fun _ => .bind (paySplit_harmless e h _) fun _ => setProfile_harmless e h _

theorem prolongIm_harmless (e : Env) {a : Addr} (h : W a .main) : Harmless bankOf W (prolongIm e a) :=
  .bind .get fun _ => .bind (.orPanic _) fun _ => .bind (prolong_harmless e h _) fun _ => setProfile_harmless e h _

theorem monthly_harmless (e : Env) {a : Addr} (h : W a .main) : Harmless bankOf W (monthly e a) := by
  refine .bind .get fun s => .bind (.orPanic _) fun pr => ?_
  split
  · exact setProfile_harmless e h _
  · split
    · exact onErr_harmless (payTariff_harmless e h 0 true) (onReferral_harmless _)
    · exact onReferral_harmless _

theorem monthlyIm_harmless (e : Env) {a : Addr} (h : W a .main) : Harmless bankOf W (monthlyIm e a) := by
  refine .bind .get fun s => .bind (.orPanic _) fun pr => .bind (onErr_harmless ?_ (.pure _)) fun _ => setProfile_harmless e h _
  split
  · exact prolong_harmless e h _
  · exact .err

/-! ### Computations about an account whose profile is known -/

/-- In states where `o` is the profile of `b`, only coins in `W` are taken. -/
def SparesAt (W : Addr → Denom → Prop) (b : Addr) (o : Profile) {α : Type} (m : M State α) : Prop :=
  ∀ s, s.profiles.get b = some o → Unharmed W s.bank (m s).2.bank

theorem SparesAt.bind {b : Addr} {o : Profile} {α β : Type} {m : M State α} {f : α → M State β} (hq : Quiet m) (hm : Harmless bankOf W m)
    (hf : ∀ x, SparesAt W b o (f x)) : SparesAt W b o (m >>= f) := by
  intro s hs
  have h1 := hm s
  have h2 := (hq s).profiles
  rw [M.bind_apply]
  rcases h : m s with ⟨r, t⟩
  rw [h] at h1 h2
  cases r with
  | ok x => exact h1.trans (hf x t (by rw [h2]; exact hs))
  | err => exact h1
  | panic => exact h1

theorem SparesAt.of {b : Addr} {o : Profile} {α : Type} {m : M State α} (hm : Harmless bankOf W m) : SparesAt W b o m := fun s _ => hm s

theorem SparesAt.set (e : Env) {b : Addr} {o p : Profile} (h : o.nickname = p.nickname) : SparesAt W b o (setProfile e b p) := by
  intro s hs
  refine setProfile_unharmed e (.inr fun q hq => ?_)
  rw [hs] at hq
  injection hq with hq
  rw [← hq]; exact h

/-- Reading the profile. -/
theorem spares_read {b : Addr} {β : Type} {f : State → Profile → M State β} {s : State}
    (h : ∀ o, s.profiles.get b = some o → SparesAt W b o (f s o)) :
    Unharmed W s.bank ((M.get >>= fun s => M.orPanic (s.profiles.get b) >>= f s) s).2.bank := by
  show Unharmed W s.bank ((M.orPanic (s.profiles.get b) >>= f s) s).2.bank
  rcases hs : s.profiles.get b with _ | o
  · exact .refl _ _
  · exact h o hs s hs

theorem giveStorageUp_harmless (e : Env) (a : Addr) (g : Nat) : Harmless bankOf W (giveStorageUp e a g) :=
  .bind (.errIf _) fun _ _ => spares_read fun _ _ => .bind (.errIf _) (.errIf _) fun _ => .bind (.errIf _) (.errIf _) fun _ => .set e rfl

theorem giveImUp_harmless (e : Env) (a : Addr) (g : Nat) : Harmless bankOf W (giveImUp e a g) := fun _ => by
  refine spares_read fun o _ => .bind (.errIf _) (.errIf _) fun _ => ?_
  split
  · exact .bind (deleteIm_quiet _ _) (onSched_harmless _) fun _ => .set e rfl
  · exact .set e rfl

theorem foldl_nickname (us : List Update) (h : ∀ t, Update.nickname t ∉ us) (p : Profile) : (us.foldl Update.apply p).nickname = p.nickname := by
  induction us generalizing p with
  | nil => rfl
  | cons u us ih =>
    rw [List.foldl_cons, ih fun t ht => h t (by simp [ht])]
    cases u with
    | nickname t => exact absurd (List.mem_cons_self ..) (h t)
    | _ => rfl

theorem updateProfile_harmless (e : Env) (a : Addr) (us : List Update) (h : (∃ t, Update.nickname t ∈ us) → W a .main) :
    Harmless bankOf W (updateProfile e a us) := by
  refine .bind (.errIf _) fun _ => .bind (.errIf _) fun _ _ => spares_read fun o _ => ?_
  by_cases hn : ∃ t, Update.nickname t ∈ us
  · exact .of (setProfile_harmless e (h hn) _)
  · exact .set e (foldl_nickname us (fun t ht => hn ⟨t, ht⟩) o).symm

theorem createAccount_unharmed (e : Env) (c a r : Addr) (p : Option Profile) (s : State)
    (hc : 0 < s.params.renamePrice → c ∉ s.params.creators → W c .main) (hp : s.accounts.get a = none → s.profiles.get a = none) :
    Unharmed W s.bank (M.tx (createAccount e c a r p) s).bank := by
  by_cases ha : s.accounts.has a = true
  · have : M.tx (createAccount e c a r p) s = s := by
      refine refused fun x t hx => ?_
      obtain ⟨_, _, h0, -⟩ := createAccount_parts hx
      simp [KV.has, h0] at ha
    rw [this]; exact .refl _ _
  have hn : s.profiles.get a = none := hp (by
    unfold KV.has at ha
    rcases hh : s.accounts.get a with _ | n
    · rfl
    · rw [hh] at ha; exact absurd rfl ha)
  -- nothing writes the profile of `a` before it is saved, so no nickname is changed
  have key : ∀ {α β : Type} {m : M State α} {f : α → M State β}, (∀ t, (m t).2.profiles = t.profiles) → Harmless bankOf W m →
      (∀ x t, t.profiles.get a = none → Unharmed W t.bank (f x t).2.bank) →
      ∀ t, t.profiles.get a = none → Unharmed W t.bank ((m >>= f) t).2.bank := by
    intro α β m f h1 h2 h3 t ht
    have g1 := h1 t
    have g2 := h2 t
    rw [M.bind_apply]
    rcases h : m t with ⟨q, t'⟩
    rw [h] at g1 g2
    cases q with
    | ok x => exact g2.trans (h3 x t' (by rw [g1]; exact ht))
    | err => exact g2
    | panic => exact g2
  have main : Unharmed W s.bank (createAccount e c a r p s).2.bank := by
    unfold createAccount
    rw [M.bind_ok (M.get_apply s), errIf_cases]
    split
    · exact .refl _ _
    refine key (fun t => ?_) ?_ ?_ s hn
    · exact ((Quiet.when (chargeFee_quiet _ _ _)) t).profiles
    · unfold when
      split
      · next h =>
        simp only [Bool.and_eq_true, decide_eq_true_eq, Bool.not_eq_true', List.contains_eq_mem, decide_eq_false_iff_not] at h
        exact chargeFee_harmless e (hc (by exact_mod_cast h.1) h.2) _
      · exact .pure _
    · intro _ t ht
      unfold createWithProfile
      refine key (fun _ => rfl) (.of_same fun _ => rfl) (fun n t ht => ?_) t ht
      refine key (fun t => (onReferral_quiet _ t).profiles) (onReferral_harmless _) (fun _ t ht => ?_) t ht
      refine key (fun _ => rfl) .get (fun _ t ht => ?_) t ht
      exact setProfile_unharmed e (.inr fun o ho => by rw [ht] at ho; cases ho)
  rcases M.tx_cases (createAccount e c a r p) s with ⟨x, hx⟩ | ⟨-, hx⟩
  · rw [hx] at main; exact main
  · rw [hx]; exact .refl _ _

/-! ### Tasks -/

/-- The profile of `x` asks for no more automatic payments than `o`. -/
def NoBolder (x : Addr) (o : Profile) (s : State) : Prop :=
  ∀ p, s.profiles.get x = some p → (p.autoPay = true → o.autoPay = true) ∧ (p.autoPayImExtra = true → o.autoPayImExtra = true)

def Timid (x : Addr) (o : Profile) {α : Type} (m : M State α) : Prop := ∀ s, s.profiles.get x = some o → NoBolder x o (m s).2

theorem Timid.quiet {x : Addr} {o : Profile} {α : Type} {m : M State α} (h : Quiet m) : Timid x o m := by
  intro s hs p hp
  rw [(h s).profiles, hs] at hp
  injection hp with hp
  subst hp; exact ⟨id, id⟩

theorem Timid.bind {x : Addr} {o : Profile} {α β : Type} {m : M State α} {f : α → M State β} (hm : Quiet m)
    (hf : ∀ y, (∃ s t, m s = (.ok y, t)) → Timid x o (f y)) : Timid x o (m >>= f) := by
  intro s hs
  have q := Timid.quiet (x := x) (o := o) hm s hs
  have h2 := (hm s).profiles
  rw [M.bind_apply]
  rcases h : m s with ⟨r, s'⟩
  rw [h] at q h2
  cases r with
  | ok y => exact hf y ⟨s, s', h⟩ s' (by rw [h2]; exact hs)
  | err => exact q
  | panic => exact q

theorem Timid.set (e : Env) {x : Addr} {o p : Profile} (h1 : p.autoPay = true → o.autoPay = true)
    (h2 : p.autoPayImExtra = true → o.autoPayImExtra = true) : Timid x o (setProfile e x p) := by
  intro s hs
  rcases setProfile_stores e x p s with f | ⟨c, f⟩
  · intro q hq
    rw [f.profiles, hs] at hq
    injection hq with hq
    subst hq; exact ⟨id, id⟩
  · intro q hq
    rw [f.profiles] at hq
    simp only [KV.get_set, if_true] at hq
    injection hq with hq
    subst hq
    exact ⟨h1, h2⟩

theorem Timid.onErr {x : Addr} {o : Profile} {α : Type} {m h : M State α} (hm : Timid x o m) (hh : Quiet h) : Timid x o (onErr m h) := by
  intro s hs
  have := hm s hs
  unfold Profile.onErr
  rcases e : m s with ⟨r, t⟩
  rw [e] at this
  cases r with
  | ok y => exact this
  | err =>
    intro p hp
    have hp : (h t).2.profiles.get x = some p := hp
    rw [(hh t).profiles] at hp
    exact this p hp
  | panic => exact this

theorem resetLimits_flags (p : Params) (pr : Profile) : (resetLimits p pr).autoPay = pr.autoPay ∧
    (resetLimits p pr).autoPayImExtra = pr.autoPayImExtra ∧ (resetLimits p pr).nickname = pr.nickname := by
  unfold resetLimits
  exact ⟨rfl, rfl, rfl⟩

theorem renewed_flags {e : Env} {p : Params} {now : Int} {pr q : Profile} {b : Nat} {auto : Bool} (h : renewed? e p now pr b auto = some q) :
    q.autoPay = pr.autoPay ∧ q.autoPayImExtra = pr.autoPayImExtra := by
  unfold renewed? at h
  dsimp only at h
  split at h
  · injection h with h
    subst h
    unfold resetLimits
    dsimp only
    split <;> exact ⟨rfl, rfl⟩
  · split at h
    · cases h
    · injection h with h
      subst h
      unfold resetLimits
      dsimp only
      split <;> split <;> exact ⟨rfl, rfl⟩

theorem read_timid {x : Addr} {β : Type} {f : State → Profile → M State β} {s : State} {o : Profile} (hs : s.profiles.get x = some o)
    (h : Timid x o (f s o)) : NoBolder x o ((M.get >>= fun s => M.orPanic (s.profiles.get x) >>= f s) s).2 := by
  show NoBolder x o ((M.orPanic (s.profiles.get x) >>= f s) s).2
  rw [hs]
  exact h s hs

theorem payTariff_timid (e : Env) (x : Addr) (o : Profile) (g : Nat) (auto : Bool) : Timid x o (payTariff e x g auto) := by
  intro s hs
  refine read_timid hs ?_
  refine .bind (.errIf _) fun _ _ => .bind (.orPanic _) fun _ _ => .bind (comeBack_quiet _ _) fun _ _ => .bind (payTotal_quiet _ _ _ _) fun _ _ =>
    .bind (.orPanic _) fun q hq => .bind (schedule_quiet _ _ _) fun _ _ => ?_
  obtain ⟨_, _, hq⟩ := hq
  obtain ⟨h1, h2⟩ := renewed_flags (M.orPanic_ok_iff.1 hq).1
  exact .set e (fun h => by rw [← h1]; exact h) fun h => by rw [← h2]; exact h

theorem monthly_timid (e : Env) (x : Addr) (o : Profile) : Timid x o (monthly e x) := by
  intro s hs
  refine read_timid hs ?_
  split
  · obtain ⟨h1, h2, -⟩ := resetLimits_flags s.params o
    exact .set e (fun h => by rw [← h1]; exact h) fun h => by rw [← h2]; exact h
  · split
    · exact .onErr (payTariff_timid e x o 0 true) (onReferral_quiet _)
    · exact .quiet (onReferral_quiet _)

theorem onErr_ok {σ α : Type} {m h : M σ α} {s t : σ} {y : α} (hh : onErr m h s = (.ok y, t)) :
    (∃ s t, m s = (.ok y, t)) ∨ ∃ s t, h s = (.ok y, t) := by
  unfold onErr at hh
  rcases e : m s with ⟨r, u⟩
  rw [e] at hh
  cases r with
  | ok z => exact .inl ⟨s, u, by rw [e]; exact congrArg (·, u) (Prod.mk.inj hh).1⟩
  | err => exact .inr ⟨u, t, hh⟩
  | panic => cases hh

theorem onErr_quiet {α : Type} {m h : M State α} (hm : Quiet m) (hh : Quiet h) : Quiet (onErr m h) := by
  intro s
  have := hm s
  unfold onErr
  rcases e : m s with ⟨r, t⟩
  rw [e] at this
  cases r with
  | ok x => exact this
  | err => exact this.trans (hh t)
  | panic => exact this

theorem prolong_flags {e : Env} {a : Addr} {o q : Profile} {s t : State} (h : prolong e a o s = (.ok q, t)) :
    q.autoPay = o.autoPay ∧ q.autoPayImExtra = o.autoPayImExtra := by
  unfold prolong at h
  simp only [M.bind_ok_iff] at h
  obtain ⟨_, _, -, _, _, -, _, _, -, _, _, -, _, _, -, _, _, -, _, _, -, _, _, -, hq⟩ := h
  obtain ⟨rfl, -⟩ := M.pure_ok.1 hq
  exact ⟨rfl, rfl⟩

theorem monthlyIm_timid (e : Env) (x : Addr) (o : Profile) : Timid x o (monthlyIm e x) := by
  intro s hs
  refine read_timid hs (.bind (onErr_quiet ?_ (.pure _)) fun q hq => ?_)
  · split
    · exact prolong_quiet _ _ _
    · exact .err
  · obtain ⟨_, _, hq⟩ := hq
    rcases onErr_ok hq with ⟨s', t', h⟩ | ⟨s', t', h⟩
    · split at h
      · obtain ⟨h1, h2⟩ := prolong_flags h
        exact .set e (fun h => by rw [← h1]; exact h) fun h => by rw [← h2]; exact h
      · cases h
    · obtain ⟨rfl, -⟩ := M.pure_ok.1 h
      exact .set e (fun h => h) fun h => by cases h

/-- A renewal task takes nothing from an account that does not ask for automatic payment. -/
theorem monthly_spares (e : Env) (x : Addr) (s : State) (h : ∀ o, s.profiles.get x = some o → o.autoPay = false) :
    Unharmed W s.bank (monthly e x s).2.bank := by
  refine spares_read fun o ho => ?_
  split
  · exact .set e (resetLimits_flags s.params o).2.2.symm
  · rw [h o ho]
    exact .of (onReferral_harmless _)

theorem monthlyIm_spares (e : Env) (x : Addr) (s : State) (h : ∀ o, s.profiles.get x = some o → o.autoPayImExtra = false) :
    Unharmed W s.bank (monthlyIm e x s).2.bank := by
  refine spares_read fun o ho => ?_
  rw [h o ho]
  intro s hs
  exact SparesAt.set (W := W) e (o := o) (p := { o with imLimitExtra := 0, extraImUntil := none, autoPayImExtra := false }) rfl s hs

/-- Does the profile of `x` ask for automatic payment of the tariff, of the additional storage? -/
def AutoPay (s : State) (x : Addr) : Prop := ∃ p, s.profiles.get x = some p ∧ p.autoPay = true
def AutoPayIm (s : State) (x : Addr) : Prop := ∃ p, s.profiles.get x = some p ∧ p.autoPayImExtra = true

theorem NoBolder.auto {x : Addr} {o : Profile} {s t : State} (h : NoBolder x o t) (hs : s.profiles.get x = some o) :
    (AutoPay t x → AutoPay s x) ∧ (AutoPayIm t x → AutoPayIm s x) :=
  ⟨fun ⟨p, hp, ha⟩ => ⟨o, hs, (h p hp).1 ha⟩, fun ⟨p, hp, ha⟩ => ⟨o, hs, (h p hp).2 ha⟩⟩

/-- No task makes a profile ask for automatic payment. -/
theorem runTask_auto (e : Schedule.Task → Env) (f : Schedule.Task → Foreign) (t : Schedule.Task) (s : State) (x : Addr) :
    (AutoPay (runTask e f t s) x → AutoPay s x) ∧ (AutoPayIm (runTask e f t s) x → AutoPayIm s x) := by
  have same : ∀ {u : State}, u.profiles.get x = s.profiles.get x → (AutoPay u x → AutoPay s x) ∧ (AutoPayIm u x → AutoPayIm s x) :=
    fun h => ⟨fun ⟨p, hp, ha⟩ => ⟨p, by rw [← h]; exact hp, ha⟩, fun ⟨p, hp, ha⟩ => ⟨p, by rw [← h]; exact hp, ha⟩⟩
  have own : ∀ {m : M State Unit} {y : Addr}, Only y m → (∀ o, Timid y o m) → (m s).2.profiles.get y = none ∨ s.profiles.get y ≠ none →
      (AutoPay (m s).2 x → AutoPay s x) ∧ (AutoPayIm (m s).2 x → AutoPayIm s x) := by
    intro m y h1 h2 h3
    by_cases hx : x = y
    · subst hx
      rcases hs : s.profiles.get x with _ | o
      · rcases h3 with h3 | h3
        · exact same (by rw [h3, hs])
        · exact absurd hs h3
      · exact (h2 o s hs).auto hs
    · exact same ((h1 s).1 x hx)
  unfold runTask
  split
  · refine own (monthly_only _ _) (monthly_timid _ _) ?_
    rcases hs : s.profiles.get (target t) with _ | o
    · left
      unfold monthly
      rw [M.bind_ok (M.get_apply s), hs]
      exact hs
    · exact .inr (by simp)
  · split
    · refine own (monthlyIm_only _ _) (monthlyIm_timid _ _) ?_
      rcases hs : s.profiles.get (target t) with _ | o
      · left
        unfold monthlyIm
        rw [M.bind_ok (M.get_apply s), hs]
        exact hs
      · exact .inr (by simp)
    · exact same (by rw [(foreign_profiles (f t) s).1])

theorem addAccounts_bank (l : List Addr) (s : State) : (addAccounts l s).bank = s.bank := by
  induction l generalizing s with
  | nil => rfl
  | cons a l ih =>
    unfold addAccounts
    rw [ih]
    split <;> rfl

/-- The tasks of a block. -/
theorem runTasks_spare (e : Schedule.Task → Env) (f : Schedule.Task → Foreign) (l : List Schedule.Task) (x : Addr) (d : Denom)
    (hf : ∀ t ∈ l, ∀ b, (balance b x).amt d ≤ (balance ((f t).bank b) x).amt d) (s : State)
    (h1 : d = .main → ∀ t ∈ l, t.handler = refreshHook → target t = x → ¬ AutoPay s x)
    (h2 : d = .main → ∀ t ∈ l, t.handler = refreshImHook → target t = x → ¬ AutoPayIm s x) :
    (balance s.bank x).amt d ≤ (balance (runTasks e f l s).bank x).amt d := by
  induction l generalizing s with
  | nil => exact Int.le_refl _
  | cons t l ih =>
    have ha := runTask_auto e f t s x
    refine Int.le_trans ?_ (ih (fun y hy => hf y (by simp [hy])) (runTask e f t s) (fun hd y hy g1 g2 g3 => h1 hd y (by simp [hy]) g1 g2 (ha.1 g3))
      fun hd y hy g1 g2 g3 => h2 hd y (by simp [hy]) g1 g2 (ha.2 g3))
    unfold runTask
    split
    · next hh =>
      by_cases hx : target t = x ∧ d = .main
      · refine monthly_spares (W := fun _ _ => False) (e t) (target t) s (fun o ho => ?_) x d id
        by_contra hc
        exact h1 hx.2 t (by simp) hh hx.1 ⟨o, by rw [← hx.1]; exact ho, by simpa using hc⟩
      · exact monthly_harmless (W := fun y c => y = target t ∧ c = .main) (e t) ⟨rfl, rfl⟩ s x d fun h => hx ⟨h.1.symm, h.2⟩
    · split
      · next hh =>
        by_cases hx : target t = x ∧ d = .main
        · refine monthlyIm_spares (W := fun _ _ => False) (e t) (target t) s (fun o ho => ?_) x d id
          by_contra hc
          exact h2 hx.2 t (by simp) hh hx.1 ⟨o, by rw [← hx.1]; exact ho, by simpa using hc⟩
        · exact monthlyIm_harmless (W := fun y c => y = target t ∧ c = .main) (e t) ⟨rfl, rfl⟩ s x d fun h => hx ⟨h.1.symm, h.2⟩
      · unfold Foreign.run
        rw [addAccounts_bank]
        exact hf t (by simp) s.bank

/-! ### C100 -/

/-- Who may be charged (main coins) by this module, and for what: the signer of a message – for a change of the nickname, the tariff, or
more storage or traffic, not for giving storage up; the creator of an account that is not on the list of free creators; an account with
automatic payment and a due task about it. -/
inductive MayCharge (s : State) (b : Addr) : Op → Prop
  | rename (us : List Update) (n : Text) (h : .nickname n ∈ us) : MayCharge s b (.updateProfile b us)
  | tariff (g : Nat) : MayCharge s b (.payTariff b g)
  | storage (g : Nat) : MayCharge s b (.buyStorage b g)
  | im (g : Nat) : MayCharge s b (.buyIm b g)
  | vpn (g : Nat) : MayCharge s b (.buyVpn b g)
  | prolong : MayCharge s b (.prolongIm b)
  | create (a r : Addr) (p : Option Profile) (h : b ∉ s.params.creators) : MayCharge s b (.createAccount b a r p)
  | renewal (e : Schedule.Task → Env) (f : Schedule.Task → Foreign) (now T : Int) (l : List Schedule.Task) (x : Schedule.Task)
      (h : s.sched.store.get T = some l) (hx : x ∈ l) (hT : T ≤ now) (hh : x.handler = refreshHook) (hb : x.data.headD 0 = b)
      (hp : ∃ p, s.profiles.get b = some p ∧ p.autoPay = true) : MayCharge s b (.block e f now)
  | renewalIm (e : Schedule.Task → Env) (f : Schedule.Task → Foreign) (now T : Int) (l : List Schedule.Task) (x : Schedule.Task)
      (h : s.sched.store.get T = some l) (hx : x ∈ l) (hT : T ≤ now) (hh : x.handler = refreshImHook) (hb : x.data.headD 0 = b)
      (hp : ∃ p, s.profiles.get b = some p ∧ p.autoPayImExtra = true) : MayCharge s b (.block e f now)

/-- Other modules take no coins of this kind from this account (see `Chain.C100_nobody_else` for what they do take). -/
def Op.Others (x : Addr) (d : Denom) : Op → Prop
  | .foreign f => ∀ b, (balance b x).amt d ≤ (balance (f.bank b) x).amt d
  | .block _ f _ => ∀ t b, (balance b x).amt d ≤ (balance ((f t).bank b) x).amt d
  | _ => True

/-- **C100, profiles.** If an operation of this module leaves an account with fewer coins of some kind, these are main coins and the
account is one that may be charged. -/
theorem C100_charged {T : TextOps} (hT : TextOk T) (e : Env) (op : Op) {s : State} (hs : Reachable T s) (x : Addr) (d : Denom)
    (ho : op.Others x d) (h : (balance (op.run e s).bank x).amt d < (balance s.bank x).amt d) : d = .main ∧ MayCharge s x op := by
  by_contra hc
  refine absurd h (Int.not_lt.2 ?_)
  clear h
  have tx : ∀ {m : M State Unit}, Harmless bankOf (fun y c => c = .main ∧ MayCharge s y op) m →
      (balance s.bank x).amt d ≤ (balance (M.tx m s).bank x).amt d := fun hm => hm.tx s x d hc
  cases op with
  | createAccount c a r p =>
    refine createAccount_unharmed (W := fun y c' => c' = .main ∧ MayCharge s y (.createAccount c a r p)) e c a r p s
      (fun _ hn => ⟨rfl, .create a r p hn⟩) (fun ha => ?_) x d hc
    rcases hp : s.profiles.get a with _ | q
    · rfl
    · obtain ⟨n, hn, -⟩ := (hs.ids hT).cards a q hp
      rw [ha] at hn; cases hn
  | updateProfile a us => exact tx (updateProfile_harmless e a us fun ⟨t, ht⟩ => ⟨rfl, .rename us t ht⟩)
  | setStorageCurrent y a v =>
    refine tx (.bind .get fun s => .bind (.errIf _) fun _ => ?_)
    split
    · exact .err
    · exact .modify fun _ => rfl
  | setVpnCurrent y a v =>
    refine tx (.bind .get fun s => .bind (.errIf _) fun _ => ?_)
    split
    · exact .err
    · exact .modify fun _ => rfl
  | setRate y v => exact tx (.bind .get fun s => .bind (.errIf _) fun _ => .bind (.panicIf _) fun _ => .modify fun _ => rfl)
  | setParams p => exact tx (.bind .get fun s => .bind (.panicIf _) fun _ => .modify fun _ => rfl)
  | payTariff a g => exact tx (payTariff_harmless e ⟨rfl, .tariff g⟩ g false)
  | buyStorage a g => exact tx (buyStorage_harmless e ⟨rfl, .storage g⟩ g)
  | buyIm a g => exact tx (buyIm_harmless e ⟨rfl, .im g⟩ g)
  | buyVpn a g => exact tx (buyVpn_harmless e ⟨rfl, .vpn g⟩ g)
  | giveStorageUp a g => exact tx (giveStorageUp_harmless e a g)
  | giveImUp a g => exact tx (giveImUp_harmless e a g)
  | prolongIm a => exact tx (prolongIm_harmless e ⟨rfl, .prolong⟩)
  | foreign f =>
    show _ ≤ (balance (f.run s).bank x).amt d
    unfold Foreign.run
    rw [addAccounts_bank]
    exact ho s.bank
  | block e' f now =>
    have due : ∀ t ∈ dueTasks now s.sched, ∃ T l, s.sched.store.get T = some l ∧ t ∈ l ∧ T ≤ now := by
      intro t ht
      unfold dueTasks at ht
      simp only [List.mem_flatten, List.mem_map, List.mem_filter, decide_eq_true_eq] at ht
      obtain ⟨l, ⟨⟨T, l'⟩, ⟨h1, h2⟩, rfl⟩, ht⟩ := ht
      exact ⟨T, l', KV.mem_entries.1 h1, ht, by dsimp only at h2; omega⟩
    refine runTasks_spare e' f (dueTasks now s.sched) x d (fun t _ => ho t) { s with now := now } (fun hd t ht hh hx hp => ?_) fun hd t ht hh hx hp => ?_
    · obtain ⟨T, l, g1, g2, g3⟩ := due t ht
      exact hc ⟨hd, .renewal e' f now T l t g1 g2 g3 hh hx hp⟩
    · obtain ⟨T, l, g1, g2, g3⟩ := due t ht
      exact hc ⟨hd, .renewalIm e' f now T l t g1 g2 g3 hh hx hp⟩

/-- **C100, profiles.** While a subscription runs, a renewal task takes nothing, whether or not automatic payment is asked for. -/
theorem C100_running (e : Env) (a : Addr) (s : State) (p : Profile) (u : Int) (hp : s.profiles.get a = some p) (hu : p.activeUntil = some u)
    (hn : s.now < u) (x : Addr) (d : Denom) : (balance s.bank x).amt d ≤ (balance (monthly e a s).2.bank x).amt d := by
  refine spares_read (W := fun _ _ => False) (b := a) (s := s) (fun o ho => ?_) x d id
  rw [hp] at ho
  injection ho with ho
  subst ho
  have : p.isActive s.now = true := by unfold Profile.isActive; rw [hu]; simpa using hn
  rw [if_pos this]
  exact .set e (resetLimits_flags s.params p).2.2.symm

/-- An account that paid once and turned automatic payment on. -/
def keenState : State := Op.runAll exampleEnv (paidOnce ++ [.updateProfile 7 [.autoPay true]]) exampleState
def freeState : State := Op.runAll exampleEnv paidOnce exampleState

theorem keen_reachable : Reachable ascii keenState := runAll_reachable _ (.start exampleStart)

/-- The block after the month is over. -/
def renewBlock : Op := .block (fun _ => exampleEnv) (fun _ => exampleForeign) (1000 + exampleMonth)

/-- **C100, profiles.** The conditions are met: at the end of the month the account with automatic payment is charged, the account
without is not; the buyer of traffic and the creator of an
account are charged. -/
theorem C100_example : (balance (renewBlock.run exampleEnv keenState).bank 7).main = (balance keenState.bank 7).main - 199000000 ∧
    (balance (renewBlock.run exampleEnv freeState).bank 7).main = (balance freeState.bank 7).main ∧
    (balance ((Op.buyVpn 7 1).run exampleEnv freeState).bank 7).main < (balance freeState.bank 7).main ∧
    (balance ((Op.createAccount 7 6 5 none).run exampleEnv freeState).bank 7).main < (balance freeState.bank 7).main ∧
    (balance ((Op.createAccount 7 6 5 none).run exampleEnv freeState).bank 5).main = (balance freeState.bank 5).main := by
  refine ⟨?_, ?_, ?_, ?_, ?_⟩ <;> decide +kernel

end Verif.Profile
