import Verif.Profile.Props

/-! Property C60: who can change a profile and the token rate. -/
namespace Verif.Profile
open Verif.Util Verif.Bank
open Verif.Schedule (Pending)

/-! ### Computations that change the profile of one account only -/

/-- Profiles of other accounts than `a`, and the parameters, are left alone, however the computation ends. -/
def Only (a : Addr) {α : Type} (m : M State α) : Prop :=
  ∀ s, (∀ b, b ≠ a → (m s).2.profiles.get b = s.profiles.get b) ∧ (m s).2.params = s.params

theorem Only.bind {a : Addr} {α β : Type} {m : M State α} {f : α → M State β} (hm : Only a m) (hf : ∀ x, Only a (f x)) :
    Only a (m >>= f) := by
  intro s
  have := hm s
  rw [M.bind_apply]
  rcases h : m s with ⟨r, s'⟩
  rw [h] at this
  cases r with
  | ok x => exact ⟨fun b hb => ((hf x s').1 b hb).trans (this.1 b hb), ((hf x s').2).trans this.2⟩
  | err => exact this
  | panic => exact this

theorem Quiet.only {a : Addr} {α : Type} {m : M State α} (h : Quiet m) : Only a m :=
  fun s => ⟨fun b _ => by rw [(h s).profiles], (h s).params⟩

theorem setProfile_only (e : Env) (a : Addr) (p : Profile) : Only a (setProfile e a p) := by
  intro s
  rcases setProfile_stores e a p s with f | ⟨c, f⟩
  · exact ⟨fun b _ => by rw [f.profiles], f.params⟩
  · refine ⟨fun b hb => ?_, f.params⟩
    rw [f.profiles]
    simp only [KV.get_set, if_neg hb]

theorem storeProfile_only (a : Addr) (p : Profile) : Only a (storeProfile a p) := by
  intro s
  refine ⟨fun b hb => ?_, rfl⟩
  simp only [storeProfile, M.modify_apply, KV.get_set, if_neg hb]

theorem newAccount_only (a b : Addr) : Only a (newAccount b) := fun _ => ⟨fun _ _ => rfl, rfl⟩

theorem Only.onErr {a : Addr} {α : Type} {m h : M State α} (hm : Only a m) (hh : Only a h) : Only a (onErr m h) := by
  intro s
  have := hm s
  unfold Profile.onErr
  rcases hs : m s with ⟨r, t⟩
  rw [hs] at this
  cases r with
  | ok x => exact this
  | err => exact ⟨fun b hb => ((hh t).1 b hb).trans (this.1 b hb), ((hh t).2).trans this.2⟩
  | panic => exact this

theorem payTariff_only (e : Env) (a : Addr) (g : Nat) (auto : Bool) : Only a (payTariff e a g auto) :=
  .bind (Quiet.only .get) fun _ => .bind (Quiet.only (.orPanic _)) fun _ => .bind (Quiet.only (.errIf _)) fun _ =>
    .bind (Quiet.only (.orPanic _)) fun _ => .bind (comeBack_quiet _ _).only fun _ => .bind (payTotal_quiet _ _ _ _).only fun _ =>
    .bind (Quiet.only (.orPanic _)) fun _ => .bind (schedule_quiet _ _ _).only fun _ => setProfile_only e a _

theorem monthly_only (e : Env) (a : Addr) : Only a (monthly e a) := by
  refine .bind (Quiet.only .get) fun s => .bind (Quiet.only (.orPanic _)) fun o => ?_
  split
  · exact setProfile_only e a _
  · split
    · exact .onErr (payTariff_only e a 0 true) (onReferral_quiet _).only
    · exact (onReferral_quiet _).only

theorem monthlyIm_only (e : Env) (a : Addr) : Only a (monthlyIm e a) := by
  refine .bind (Quiet.only .get) fun s => .bind (Quiet.only (.orPanic _)) fun o => .bind (.onErr ?_ (Quiet.only (.pure _))) fun p =>
    setProfile_only e a _
  split
  · exact (prolong_quiet _ _ _).only
  · exact Quiet.only .err

theorem updateProfile_only (e : Env) (a : Addr) (us : List Update) : Only a (updateProfile e a us) :=
  .bind (Quiet.only (.errIf _)) fun _ => .bind (Quiet.only (.errIf _)) fun _ => .bind (Quiet.only .get) fun _ =>
    .bind (Quiet.only (.orPanic _)) fun _ => setProfile_only e a _

theorem createAccount_only (e : Env) (c a r : Addr) (p : Option Profile) : Only a (createAccount e c a r p) :=
  .bind (Quiet.only .get) fun _ => .bind (Quiet.only (.errIf _)) fun _ => .bind (Quiet.only (.when (chargeFee_quiet _ _ _))) fun _ =>
    .bind (newAccount_only a a) fun _ => .bind (onReferral_quiet _).only fun _ => .bind (Quiet.only .get) fun _ => setProfile_only e a _

theorem setStorageCurrent_only (x a : Addr) (v : Nat) : Only a (setStorageCurrent x a v) := by
  refine .bind (Quiet.only .get) fun s => .bind (Quiet.only (.errIf _)) fun _ => ?_
  split
  · exact Quiet.only .err
  · exact storeProfile_only _ _

theorem setVpnCurrent_only (x a : Addr) (v : Nat) : Only a (setVpnCurrent x a v) := by
  refine .bind (Quiet.only .get) fun s => .bind (Quiet.only (.errIf _)) fun _ => ?_
  split
  · exact Quiet.only .err
  · exact storeProfile_only _ _

theorem buyStorage_only (e : Env) (a : Addr) (g : Nat) : Only a (buyStorage e a g) :=
  .bind (Quiet.only (.errIf _)) fun _ => .bind (Quiet.only .get) fun _ => .bind (Quiet.only (.orPanic _)) fun _ =>
    .bind (Quiet.only (.errIf _)) fun _ => .bind (Quiet.only (.orPanic _)) fun _ => .bind (Quiet.only (.orPanic _)) fun _ =>
    .bind (Quiet.only (.panicIf _)) fun _ => .bind (paySplit_quiet _ _ _).only fun _ => setProfile_only e a _

theorem buyIm_only (e : Env) (a : Addr) (g : Nat) : Only a (buyIm e a g) := by
  refine .bind (Quiet.only (.errIf _)) fun _ => .bind (Quiet.only .get) fun _ => .bind (Quiet.only (.orPanic _)) fun _ =>
    .bind (Quiet.only (.orPanic _)) fun _ => .bind (Quiet.only (.orPanic _)) fun _ =>
    .bind (Quiet.only (.panicIf _)) fun _ => .bind (paySplit_quiet _ _ _).only fun _ => ?_
  split
  · exact setProfile_only e a _
  · exact .bind (schedule_quiet _ _ _).only fun _ => setProfile_only e a _

theorem buyVpn_only (e : Env) (a : Addr) (g : Nat) : Only a (buyVpn e a g) :=
  .bind (Quiet.only (.errIf _)) fun _ => .bind (Quiet.only .get) fun _ => .bind (Quiet.only (.orPanic _)) fun _ =>
    .bind (Quiet.only (.errIf _)) fun _ => .bind (Quiet.only (.orPanic _)) fun _ => .bind (Quiet.only (.orPanic _)) fun _ =>
    .bind (paySplit_quiet _ _ _).only fun _ => setProfile_only e a _

theorem giveStorageUp_only (e : Env) (a : Addr) (g : Nat) : Only a (giveStorageUp e a g) :=
  .bind (Quiet.only (.errIf _)) fun _ => .bind (Quiet.only .get) fun _ => .bind (Quiet.only (.orPanic _)) fun _ =>
    .bind (Quiet.only (.errIf _)) fun _ => .bind (Quiet.only (.errIf _)) fun _ => setProfile_only e a _

theorem giveImUp_only (e : Env) (a : Addr) (g : Nat) : Only a (giveImUp e a g) := by
  refine .bind (Quiet.only .get) fun _ => .bind (Quiet.only (.orPanic _)) fun _ => .bind (Quiet.only (.errIf _)) fun _ => ?_
  split
  · exact .bind (deleteIm_quiet _ _).only fun _ => setProfile_only e a _
  · exact setProfile_only e a _

theorem prolongIm_only (e : Env) (a : Addr) : Only a (prolongIm e a) :=
  .bind (Quiet.only .get) fun _ => .bind (Quiet.only (.orPanic _)) fun _ => .bind (prolong_quiet _ _ _).only fun _ => setProfile_only e a _

theorem addAccounts_both (l : List Addr) (s : State) : (addAccounts l s).profiles = s.profiles ∧ (addAccounts l s).params = s.params := by
  induction l generalizing s with
  | nil => exact ⟨rfl, rfl⟩
  | cons a l ih =>
    unfold addAccounts
    obtain ⟨h1, h2⟩ := ih (if s.accounts.has a then s else (newAccount a s).2)
    rw [h1, h2]
    split <;> exact ⟨rfl, rfl⟩

theorem foreign_profiles (f : Foreign) (s : State) : (f.run s).profiles = s.profiles ∧ (f.run s).params = s.params :=
  addAccounts_both _ _

theorem runTasks_only (e : Schedule.Task → Env) (f : Schedule.Task → Foreign) (l : List Schedule.Task) (b : Addr)
    (h : ∀ x ∈ l, x.handler = refreshHook ∨ x.handler = refreshImHook → target x ≠ b) (s : State) :
    (runTasks e f l s).profiles.get b = s.profiles.get b := by
  induction l generalizing s with
  | nil => rfl
  | cons x l ih =>
    refine (ih (fun y hy => h y (by simp [hy])) (runTask e f x s)).trans ?_
    have hx := h x (by simp)
    unfold runTask
    split
    · next h1 => exact (monthly_only (e x) (target x) s).1 b (hx (.inl h1)).symm
    · split
      · next h1 => exact (monthlyIm_only (e x) (target x) s).1 b (hx (.inr h1)).symm
      · rw [(foreign_profiles (f x) s).1]

theorem runTasks_params (e : Schedule.Task → Env) (f : Schedule.Task → Foreign) (l : List Schedule.Task) (s : State) :
    (runTasks e f l s).params = s.params := by
  induction l generalizing s with
  | nil => rfl
  | cons x l ih =>
    refine (ih (runTask e f x s)).trans ?_
    unfold runTask
    split
    · exact (monthly_only (e x) (target x) s).2
    · split
      · exact (monthlyIm_only (e x) (target x) s).2
      · exact (foreign_profiles (f x) s).2

theorem tx_only {a : Addr} {α : Type} {m : M State α} (h : Only a m) (s : State) :
    (∀ b, b ≠ a → (M.tx m s).profiles.get b = s.profiles.get b) ∧ (M.tx m s).params = s.params := by
  rcases M.tx_cases m s with ⟨x, hx⟩ | ⟨-, hx⟩
  · have := h s
    rw [hx] at this; exact this
  · rw [hx]; exact ⟨fun _ _ => rfl, rfl⟩

/-! ### C60 -/

/-- The account that signs a message about its own profile. -/
def signedBy : Op → Option Addr
  | .updateProfile a _ | .payTariff a _ | .buyStorage a _ | .buyIm a _ | .buyVpn a _ | .giveStorageUp a _ | .giveImUp a _ | .prolongIm a =>
    some a
  | _ => none

/-- What may change the profile of `b`: a message signed by `b`, the report of a listed signer, the creation of `b`, a task of this
module about `b` that is due. -/
inductive Entitled (s : State) (b : Addr) : Op → Prop
  | own (op : Op) (h : signedBy op = some b) : Entitled s b op
  | storage (x : Addr) (v : Nat) (h : x ∈ s.params.storageSigners) : Entitled s b (.setStorageCurrent x b v)
  | vpn (x : Addr) (v : Nat) (h : x ∈ s.params.vpnSigners) : Entitled s b (.setVpnCurrent x b v)
  | create (c r : Addr) (p : Option Profile) (h : s.accounts.get b = none) : Entitled s b (.createAccount c b r p)
  | due (e : Schedule.Task → Env) (f : Schedule.Task → Foreign) (now T : Int) (l : List Schedule.Task) (x : Schedule.Task)
      (h : s.sched.store.get T = some l) (hx : x ∈ l) (hT : T ≤ now) (hh : x.handler = refreshHook ∨ x.handler = refreshImHook)
      (hb : x.data.headD 0 = b) : Entitled s b (.block e f now)

theorem refused {α : Type} {m : M State α} {s : State} (h : ∀ x t, m s ≠ (.ok x, t)) : M.tx m s = s := by
  rcases M.tx_cases m s with ⟨x, hx⟩ | ⟨-, hx⟩
  · exact absurd hx (h x _)
  · exact hx

/-- **C60, profiles.** A profile changes only by a message of its owner, a report of a listed signer, the creation of its account, or a
due task about it. -/
theorem C60_profiles (e : Env) (op : Op) (s : State) (b : Addr) (h : (op.run e s).profiles.get b ≠ s.profiles.get b) :
    Entitled s b op := by
  have own : ∀ {α : Type} {a : Addr} {m : M State α}, Only a m → (M.tx m s).profiles.get b ≠ s.profiles.get b → b = a := by
    intro α a m hm hne
    by_contra hb
    exact hne ((tx_only hm s).1 b hb)
  cases op with
  | createAccount c a r p =>
    have := own (createAccount_only e c a r p) h
    subst this
    refine .create c r p ?_
    by_contra hacc
    refine h ?_
    have : (Op.createAccount c b r p).run e s = s := by
      refine refused fun x t hx => hacc ?_
      obtain ⟨_, _, h0, -⟩ := createAccount_parts hx
      exact h0
    rw [this]
  | updateProfile a us => exact .own _ (by rw [own (updateProfile_only e a us) h]; rfl)
  | setStorageCurrent x a v =>
    have := own (setStorageCurrent_only x a v) h
    subst this
    refine .storage x v ?_
    by_contra hx
    refine h ?_
    have : (Op.setStorageCurrent x b v).run e s = s := by
      refine refused fun y t hy => hx ?_
      unfold setStorageCurrent at hy
      rw [M.get_bind_ok, M.errIf_bind_ok] at hy
      simpa using hy.1
    rw [this]
  | setVpnCurrent x a v =>
    have := own (setVpnCurrent_only x a v) h
    subst this
    refine .vpn x v ?_
    by_contra hx
    refine h ?_
    have : (Op.setVpnCurrent x b v).run e s = s := by
      refine refused fun y t hy => hx ?_
      unfold setVpnCurrent at hy
      rw [M.get_bind_ok, M.errIf_bind_ok] at hy
      simpa using hy.1
    rw [this]
  | setRate x v =>
    refine absurd ?_ h
    have : (setRate x v s).2.profiles = s.profiles := by
      unfold setRate
      rw [M.bind_ok (M.get_apply s), errIf_cases]
      split
      · rfl
      · rcases hv : ({ s.params with tokenRate := v } : Params).valid with _ | _ <;> rfl
    rcases M.tx_cases (setRate x v) s with ⟨y, hy⟩ | ⟨-, hy⟩
    · rw [hy] at this
      exact congrArg (·.get b) this
    · exact congrArg (fun t : State => t.profiles.get b) hy
  | setParams p =>
    refine absurd ?_ h
    have : (setParams p s).2.profiles = s.profiles := by
      unfold setParams
      rw [M.bind_ok (M.get_apply s)]
      rcases hv : (decide (p.cardMagic ≠ s.params.cardMagic ∧ p.cardMagic ≠ 0) || !p.valid) with _ | _ <;> rfl
    rcases M.tx_cases (setParams p) s with ⟨y, hy⟩ | ⟨-, hy⟩
    · rw [hy] at this
      exact congrArg (·.get b) this
    · exact congrArg (fun t : State => t.profiles.get b) hy
  | payTariff a g => exact .own _ (by rw [own (payTariff_only e a g false) h]; rfl)
  | buyStorage a g => exact .own _ (by rw [own (buyStorage_only e a g) h]; rfl)
  | buyIm a g => exact .own _ (by rw [own (buyIm_only e a g) h]; rfl)
  | buyVpn a g => exact .own _ (by rw [own (buyVpn_only e a g) h]; rfl)
  | giveStorageUp a g => exact .own _ (by rw [own (giveStorageUp_only e a g) h]; rfl)
  | giveImUp a g => exact .own _ (by rw [own (giveImUp_only e a g) h]; rfl)
  | prolongIm a => exact .own _ (by rw [own (prolongIm_only e a) h]; rfl)
  | foreign f => exact absurd (congrArg (·.get b) (foreign_profiles f s).1) h
  | block e' f now =>
    by_contra hc
    refine h (runTasks_only e' f (dueTasks now s.sched) b ?_ { s with now := now })
    intro x hx hh ht
    unfold dueTasks at hx
    simp only [List.mem_flatten, List.mem_map, List.mem_filter, decide_eq_true_eq] at hx
    obtain ⟨l, ⟨⟨T, l'⟩, ⟨h1, h2⟩, rfl⟩, hx⟩ := hx
    exact hc (.due e' f now T l' x (KV.mem_entries.1 h1) hx (by dsimp only at h2; omega) hh ht)

theorem valid_iff {p : Params} : p.valid = true ↔ p.creators ≠ [] ∧ p.storageSigners ≠ [] ∧ p.vpnSigners ≠ [] ∧ p.tokenRateSigners ≠ [] ∧
    p.tokenRate.isPositive = true ∧ p.subscriptionPrice ≠ 0 ∧ p.vpnGbPrice ≠ 0 ∧ p.storageGbPrice ≠ 0 ∧ p.baseVpnGb ≠ 0 ∧ p.baseStorageGb ≠ 0 := by
  unfold Params.valid
  simp only [Bool.and_eq_true, Bool.not_eq_true', List.isEmpty_eq_false_iff, bne_iff_ne, and_assoc]

theorem valid_rate {p : Params} {v : Frac} (h : p.valid = true) (hv : v.isPositive = true) : ({ p with tokenRate := v } : Params).valid = true := by
  obtain ⟨h1, h2, h3, h4, -, h5⟩ := valid_iff.1 h
  exact valid_iff.2 ⟨h1, h2, h3, h4, hv, h5⟩

/-- Valid parameters stay valid. -/
theorem valid_params (e : Env) (op : Op) (s : State) (h : s.params.valid = true) : (op.run e s).params.valid = true := by
  have own : ∀ {α : Type} {a : Addr} {m : M State α}, Only a m → (M.tx m s).params.valid = true :=
    fun hm => by rw [(tx_only hm s).2]; exact h
  cases op with
  | createAccount c a r p => exact own (createAccount_only e c a r p)
  | updateProfile a us => exact own (updateProfile_only e a us)
  | setStorageCurrent x a v => exact own (setStorageCurrent_only x a v)
  | setVpnCurrent x a v => exact own (setVpnCurrent_only x a v)
  | setRate x v =>
    show (M.tx (setRate x v) s).params.valid = true
    rcases M.tx_cases (setRate x v) s with ⟨y, hy⟩ | ⟨-, hy⟩
    · generalize M.tx (setRate x v) s = t at hy ⊢
      unfold setRate at hy
      rw [M.get_bind_ok, M.errIf_bind_ok, M.panicIf_bind_ok, M.modify_apply, Prod.mk.injEq] at hy
      rw [← hy.2.2.2]
      simpa using hy.2.1
    · rw [hy]; exact h
  | setParams p =>
    show (M.tx (setParams p) s).params.valid = true
    rcases M.tx_cases (setParams p) s with ⟨y, hy⟩ | ⟨-, hy⟩
    · generalize M.tx (setParams p) s = t at hy ⊢
      unfold setParams at hy
      rw [M.get_bind_ok, M.panicIf_bind_ok, M.modify_apply, Prod.mk.injEq, Bool.or_eq_false_iff, Bool.not_eq_false'] at hy
      rw [← hy.2.2]
      exact hy.1.2
    · rw [hy]; exact h
  | payTariff a g => exact own (payTariff_only e a g false)
  | buyStorage a g => exact own (buyStorage_only e a g)
  | buyIm a g => exact own (buyIm_only e a g)
  | buyVpn a g => exact own (buyVpn_only e a g)
  | giveStorageUp a g => exact own (giveStorageUp_only e a g)
  | giveImUp a g => exact own (giveImUp_only e a g)
  | prolongIm a => exact own (prolongIm_only e a)
  | foreign f => show (f.run s).params.valid = true; rw [(foreign_profiles f s).2]; exact h
  | block e' f now =>
    have := runTasks_params e' f (dueTasks now s.sched) { s with now := now }
    show (Profile.block e' f now s).params.valid = true
    exact (congrArg Params.valid this).trans h

/-- **C60, rate.** The token rate changes only when a listed signer sets a positive rate, or the parameters are replaced. -/
theorem C60_rate (e : Env) (op : Op) (s : State) (h : (op.run e s).params.tokenRate ≠ s.params.tokenRate) :
    (∃ x v, op = .setRate x v ∧ x ∈ s.params.tokenRateSigners ∧ 0 < v.toRat ∧ (op.run e s).params.tokenRate = v) ∨ ∃ p, op = .setParams p := by
  have own : ∀ {α : Type} {a : Addr} {m : M State α}, Only a m → (M.tx m s).params.tokenRate ≠ s.params.tokenRate → False :=
    fun hm hne => hne (congrArg Params.tokenRate (tx_only hm s).2)
  cases op with
  | createAccount c a r p => exact (own (createAccount_only e c a r p) h).elim
  | updateProfile a us => exact (own (updateProfile_only e a us) h).elim
  | setStorageCurrent x a v => exact (own (setStorageCurrent_only x a v) h).elim
  | setVpnCurrent x a v => exact (own (setVpnCurrent_only x a v) h).elim
  | setRate x v =>
    left
    rcases M.tx_cases (setRate x v) s with ⟨y, hy⟩ | ⟨-, hy⟩
    · have ht : (Op.setRate x v).run e s = M.tx (setRate x v) s := rfl
      rw [ht]
      generalize M.tx (setRate x v) s = t at hy
      unfold setRate at hy
      rw [M.get_bind_ok, M.errIf_bind_ok, M.panicIf_bind_ok] at hy
      obtain ⟨h1, h2, h3⟩ := hy
      refine ⟨x, v, rfl, by simpa using h1, ?_, ?_⟩
      · have hp : v.isPositive = true := (valid_iff.1 (by simpa using h2)).2.2.2.2.1
        refine (Frac.isPositive_iff v ?_).1 hp
        intro h0
        unfold Frac.isPositive at hp
        rw [h0] at hp; simp at hp
      · rw [M.modify_apply, Prod.mk.injEq] at h3
        rw [← h3.2]
    · exact absurd (congrArg (fun t : State => t.params.tokenRate) hy) h
  | setParams p => exact .inr ⟨p, rfl⟩
  | payTariff a g => exact (own (payTariff_only e a g false) h).elim
  | buyStorage a g => exact (own (buyStorage_only e a g) h).elim
  | buyIm a g => exact (own (buyIm_only e a g) h).elim
  | buyVpn a g => exact (own (buyVpn_only e a g) h).elim
  | giveStorageUp a g => exact (own (giveStorageUp_only e a g) h).elim
  | giveImUp a g => exact (own (giveImUp_only e a g) h).elim
  | prolongIm a => exact (own (prolongIm_only e a) h).elim
  | foreign f => exact absurd (congrArg Params.tokenRate (foreign_profiles f s).2) h
  | block e' f now => exact absurd (congrArg Params.tokenRate (runTasks_params e' f (dueTasks now s.sched) { s with now := now })) h

/-- A listed signer can set any positive rate (the stored parameters are always valid, `valid_params`). -/
theorem C60_signer_sets_rate (e : Env) (s : State) (hs : s.params.valid = true) (x : Addr) (v : Frac) (hx : x ∈ s.params.tokenRateSigners)
    (hv : 0 < v.toRat) :
    ((Op.setRate x v).run e s).params = { s.params with tokenRate := v } := by
  have hd : v.denom ≠ 0 := by
    intro h0
    unfold Frac.toRat at hv
    rw [h0] at hv; simp at hv
  have hp := (Frac.isPositive_iff v hd).2 hv
  have hc : s.params.tokenRateSigners.contains x = true := by simpa using hx
  have : setRate x v s = (.ok (), { s with params := { s.params with tokenRate := v } }) := by
    unfold setRate
    have hp : ({ s.params with tokenRate := v } : Params).valid = true := valid_rate hs hp
    rw [M.bind_ok (M.get_apply s), errIf_cases, hc, hp]
    rfl
  show (M.tx (setRate x v) s).params = _
  unfold M.tx
  rw [this]

/-- What a nickname must look like: nothing, or at least three characters, none of ` */:'"=[],.`, not starting with "ARTR-". -/
def properNickname (t : Text) : Prop :=
  t = [] ∨ (3 ≤ t.length ∧ (∀ c ∈ t, c ∉ [32, 42, 47, 58, 39, 34, 61, 91, 93, 44, 46]) ∧ ¬ [65, 82, 84, 82, 45] <+: t)

theorem valid_proper (t : Text) : (Update.nickname t).valid = true ↔ properNickname t := by
  unfold Update.valid properNickname
  rw [Bool.or_eq_true, Bool.and_eq_true, Bool.and_eq_true, decide_eq_true_eq, decide_eq_true_eq, decide_eq_true_eq, List.all_eq_true]
  have h1 : (∀ x ∈ t, (!([32, 42, 47, 58, 39, 34, 61, 91, 93, 44, 46].contains x)) = true) ↔
      ∀ c ∈ t, c ∉ [32, 42, 47, 58, 39, 34, 61, 91, 93, 44, 46] := by
    simp only [Bool.not_eq_true', List.contains_eq_mem, decide_eq_false_iff_not]
  have h2 : t.take 5 ≠ [65, 82, 84, 82, 45] ↔ ¬ [65, 82, 84, 82, 45] <+: t := by
    rw [List.prefix_iff_eq_take]
    exact ⟨fun h hc => h hc.symm, fun h hc => h hc.symm⟩
  rw [h1, h2]
  tauto

/-- The last value of a list, or a default. -/
def lastOf {α : Type} (d : α) (l : List α) : α := l.getLastD d

theorem fold_fields (us : List Update) (o : Profile) : us.foldl Update.apply o = { o with
    autoPay := lastOf o.autoPay (us.filterMap fun | .autoPay b => some b | _ => none)
    flags := lastOf o.flags (us.filterMap fun | .flags b => some b | _ => none)
    nickname := lastOf o.nickname (us.filterMap fun | .nickname b => some b | _ => none)
    autoPayImExtra := lastOf o.autoPayImExtra (us.filterMap fun | .autoPayIm b => some b | _ => none) } := by
  have key : ∀ {α : Type} (d x : α) (l : List α), lastOf d (x :: l) = lastOf x l := by
    intro α d x l
    unfold lastOf
    cases l <;> rfl
  induction us generalizing o with
  | nil => rfl
  | cons u us ih =>
    rw [List.foldl_cons, ih]
    cases u <;> simp only [Update.apply, List.filterMap_cons, key]

theorem setProfile_keeps_card {e : Env} {a : Addr} {o p : Profile} {s t : State} {u : Unit} (h : setProfile e a p s = (.ok u, t))
    (ho : s.profiles.get a = some o) (hc : p.cardNumber = o.cardNumber) : t.profiles = s.profiles.set a p := by
  unfold setProfile at h
  rw [M.get_bind_ok, M.errIf_bind_ok] at h
  obtain ⟨h0, h⟩ := h
  rw [M.bind_ok_iff] at h
  obtain ⟨u1, s1, h1, h⟩ := h
  obtain ⟨A, q1, -⟩ := updateAlias_ok h1
  rw [M.bind_ok_iff] at h
  obtain ⟨c, s2, h2, h⟩ := h
  obtain ⟨rfl, hs2⟩ := updateCard_ok h2 (fun o' h' => by rw [ho] at h'; cases h'; exact hc)
  have h3 : storeProfile a { p with cardNumber := p.cardNumber } s2 = (.ok (), { s2 with profiles := s2.profiles.set a p }) := rfl
  rw [M.bind_ok h3, M.bind_ok_iff] at h
  obtain ⟨u3, s3, h3, h⟩ := h
  have f3 := ensureAccount_framed a { s2 with profiles := s2.profiles.set a p }
  rw [h3] at f3
  have f4 := tellReferral_quiet e a (s.profiles.get a) p s3
  rw [h] at f4
  rw [f4.profiles, f3.profiles]
  show s2.profiles.set a p = _
  rw [hs2]
  show s1.profiles.set a p = _
  rw [q1.profiles]

/-- **C60, update.** An accepted update sets automatic payment, flags and nickname to the last values sent and nothing else; every
nickname sent is proper. -/
theorem C60_update {e : Env} {a : Addr} {us : List Update} {s t : State} {u : Unit} (h : updateProfile e a us s = (.ok u, t)) :
    us ≠ [] ∧ (∀ n, Update.nickname n ∈ us → properNickname n) ∧
    ∃ o, s.profiles.get a = some o ∧ t.profiles = s.profiles.set a { o with
      autoPay := lastOf o.autoPay (us.filterMap fun | .autoPay b => some b | _ => none)
      flags := lastOf o.flags (us.filterMap fun | .flags b => some b | _ => none)
      nickname := lastOf o.nickname (us.filterMap fun | .nickname b => some b | _ => none)
      autoPayImExtra := lastOf o.autoPayImExtra (us.filterMap fun | .autoPayIm b => some b | _ => none) } := by
  unfold updateProfile at h
  rw [M.errIf_bind_ok, M.errIf_bind_ok, M.get_bind_ok, M.orPanic_bind_ok] at h
  obtain ⟨h1, h2, o, ho, h⟩ := h
  refine ⟨by simpa using h1, ?_, ?_⟩
  · intro n hn
    rw [← valid_proper]
    have h2' : us.all Update.valid = true := by simpa using h2
    exact List.all_eq_true.1 h2' _ hn
  · refine ⟨o, ho, ?_⟩
    rw [setProfile_keeps_card h ho (apply_foldl us o).1, fold_fields]

/-- **C60, reports.** A report replaces the reported value and nothing else. -/
theorem C60_reports {x a : Addr} {v : Nat} {s t : State} {u : Unit} (hv : v < 2 ^ 64) :
    (setVpnCurrent x a v s = (.ok u, t) → ∃ o, s.profiles.get a = some o ∧ t = { s with profiles := s.profiles.set a { o with vpnCurrent := v } }) ∧
    (setStorageCurrent x a v s = (.ok u, t) →
      ∃ o, s.profiles.get a = some o ∧ t = { s with profiles := s.profiles.set a { o with storageCurrent := v } }) := by
  have hu : u64 (v : Int) = v := by unfold u64; omega
  constructor
  · intro h
    unfold setVpnCurrent at h
    rw [M.get_bind_ok, M.errIf_bind_ok] at h
    obtain ⟨-, h⟩ := h
    rcases ho : s.profiles.get a with _ | o
    · rw [ho] at h; simp [M.err] at h
    · rw [ho] at h
      dsimp only at h
      rw [hu] at h
      unfold storeProfile at h
      rw [M.modify_apply, Prod.mk.injEq] at h
      exact ⟨o, rfl, h.2.symm⟩
  · intro h
    unfold setStorageCurrent at h
    rw [M.get_bind_ok, M.errIf_bind_ok] at h
    obtain ⟨-, h⟩ := h
    rcases ho : s.profiles.get a with _ | o
    · rw [ho] at h; simp [M.err] at h
    · rw [ho] at h
      dsimp only at h
      rw [hu] at h
      unfold storeProfile at h
      rw [M.modify_apply, Prod.mk.injEq] at h
      exact ⟨o, rfl, h.2.symm⟩

/-! ### Cases -/

/-- Three accounts; 8 may report traffic, 11 may set the rate. -/
def ownedState : State := { Op.runAll exampleEnv paidOnce exampleState with params := { creators := [1], vpnSigners := [8], storageSigners := [8], tokenRateSigners := [11] } }

-- the signer sets traffic and rate, a stranger does not; the owner takes a nickname, a proper one
example : (setVpnCurrent 8 7 5 ownedState).1 = .ok () ∧ (setVpnCurrent 11 7 5 ownedState).1 = .err ∧
    (setStorageCurrent 8 7 5 ownedState).1 = .ok () ∧ (setStorageCurrent 7 7 5 ownedState).1 = .err ∧
    (setRate 11 ⟨3, 1⟩ ownedState).1 = .ok () ∧ (setRate 8 ⟨3, 1⟩ ownedState).1 = .err ∧ (setRate 11 ⟨0, 1⟩ ownedState).1 = .panic ∧
    (updateProfile exampleEnv 7 [.nickname carol] ownedState).1 = .ok () ∧
    (updateProfile exampleEnv 7 [.nickname bobBlank] ownedState).1 = .err ∧
    (updateProfile exampleEnv 7 [.autoPay true, .autoPay false, .flags 3] ownedState).1 = .ok () := by
  decide +kernel

end Verif.Profile
