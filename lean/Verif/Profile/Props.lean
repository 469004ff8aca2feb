import Verif.Profile.Tariff
import Verif.Bank.Props
import Mathlib.Data.List.DropRight

/-! Properties C39, C40, C42 and C48, and concrete cases for all profile properties. -/
namespace Verif.Profile
open Verif.Util Verif.Bank
open Verif.Schedule (Pending)

/-! ### C39 -/

/-- **C39, first half.** Two accounts never hold nicknames that differ in letter case and surrounding blanks only. -/
theorem C39_unique {T : TextOps} (hT : TextOk T) {s : State} (hs : Reachable T s) {a b : Addr} {p q : Profile}
    (ha : s.profiles.get a = some p) (hb : s.profiles.get b = some q) (hne : T.trim p.nickname ≠ [])
    (hsame : T.lower (T.trim p.nickname) = T.lower (T.trim q.nickname)) : a = b := by
  have hi := hs.ids hT
  have h1 := hi.nicks a p ha hne
  have hne' : T.trim q.nickname ≠ [] := by
    intro h
    rw [h] at hsame
    have : T.lower ([] : Text) = [] := (hT.lower_nil _).2 rfl
    rw [this] at hsame
    exact hne ((hT.lower_nil _).1 hsame)
  have h2 := hi.nicks b q hb hne'
  rw [hsame, h2] at h1
  injection h1 with h1; exact h1.symm

/-- **C39 (partial).** Uniqueness, and the look-up of a held nickname without its surrounding blanks finds the holder; in any
letter case. -/
theorem C39_nicknames_partial {T : TextOps} (hT : TextOk T) {s : State} (hs : Reachable T s) :
    (∀ a b p q, s.profiles.get a = some p → s.profiles.get b = some q → T.trim p.nickname ≠ [] →
      T.lower (T.trim p.nickname) = T.lower (T.trim q.nickname) → a = b) ∧
    (∀ (e : Env) a p n, e.text = T → s.profiles.get a = some p → T.trim p.nickname ≠ [] →
      T.lower n = T.lower (T.trim p.nickname) → byNickname e s n = some a) := by
  refine ⟨fun a b p q ha hb hne hsame => C39_unique hT hs ha hb hne hsame, fun e a p n he ha hne hn => ?_⟩
  unfold byNickname
  rw [he, hn]
  exact (hs.ids hT).nicks a p ha hne

/-! ### C40 -/

/-- **C40.** Different accounts have different card numbers, and a non-zero card number leads to its holder. -/
theorem C40_cards {T : TextOps} (hT : TextOk T) {s : State} (hs : Reachable T s) :
    (∀ a b p q, s.profiles.get a = some p → s.profiles.get b = some q → p.cardNumber = q.cardNumber → a = b) ∧
    (∀ a p, s.profiles.get a = some p → p.cardNumber ≠ 0 → byCard s p.cardNumber = some a) := by
  have hi := hs.ids hT
  constructor
  · intro a b p q ha hb hc
    obtain ⟨n, g1, g2, -⟩ := hi.cards a p ha
    obtain ⟨m, k1, k2, -⟩ := hi.cards b q hb
    have : n = m := by
      rw [g2, k2] at hc
      have := congrArg (· ^^^ s.params.cardMagic) hc
      simpa [Nat.xor_assoc] using this
    subst this
    exact hi.accs.inj _ _ _ g1 k1
  · intro a p ha hc
    obtain ⟨n, -, -, g⟩ := hi.cards a p ha
    exact g hc

/-! ### C48 -/

/-- **C48 (partial).** While a subscription runs, its renewal is scheduled exactly at its end — as long as no account was created
with a subscription. -/
theorem C48_renewal_partial {T : TextOps} {s : State} (hs : PlainReachable T s) {a : Addr} {p : Profile} {u : Int}
    (hp : s.profiles.get a = some p) (hu : p.activeUntil = some u) (hn : s.now < u) :
    ∃ x, Pending s.sched x ∧ x.time = u ∧ x.handler = refreshHook ∧ x.data = [a] := hs.renew a p u hp hu hn

/-! ### C42 -/

/-- No subscription of `a`, now or in the past. -/
def Unsub (a : Addr) (s : State) : Prop := ∀ p, s.profiles.get a = some p → p.activeUntil = none

theorem Unsub.of_profiles {a : Addr} {s t : State} (h : Unsub a s) (ht : t.profiles = s.profiles) : Unsub a t := by
  intro p hp; rw [ht] at hp; exact h p hp

theorem setProfile_unsub (e : Env) {a b : Addr} {p : Profile} {s : State} (h : Unsub a s) (hp : b = a → p.activeUntil = none) :
    Unsub a (setProfile e b p s).2 := by
  rcases setProfile_stores e b p s with f | ⟨c, f⟩
  · exact h.of_profiles f.profiles
  · intro q hq
    rw [f.profiles] at hq
    simp only [KV.get_set] at hq
    split at hq
    · next hb => injection hq with hq; subst hq; exact hp hb.symm
    · exact h q hq

def KeepsU (a b : Addr) (o : Profile) {α : Type} (m : M State α) : Prop :=
  ∀ s, s.profiles.get b = some o → Unsub a s → Unsub a (m s).2

def PresU (a : Addr) {α : Type} (m : M State α) : Prop := ∀ s, Unsub a s → Unsub a (m s).2

theorem KeepsU.bind' {a b : Addr} {o : Profile} {α β : Type} {m : M State α} {f : α → M State β} (hm : Quiet m)
    (hf : ∀ x, (∃ s t, m s = (.ok x, t)) → KeepsU a b o (f x)) : KeepsU a b o (m >>= f) := by
  intro s hs hu
  have q := hm s
  rw [M.bind_apply]
  rcases h : m s with ⟨r, s'⟩
  rw [h] at q
  have hu' : Unsub a s' := hu.of_profiles q.profiles
  cases r with
  | ok x => exact hf x ⟨s, s', h⟩ s' (by rw [q.profiles]; exact hs) hu'
  | err => exact hu'
  | panic => exact hu'

theorem KeepsU.bind {a b : Addr} {o : Profile} {α β : Type} {m : M State α} {f : α → M State β} (hm : Quiet m)
    (hf : ∀ x, KeepsU a b o (f x)) : KeepsU a b o (m >>= f) := .bind' hm fun x _ => hf x

theorem KeepsU.quiet {a b : Addr} {o : Profile} {α : Type} {m : M State α} (h : Quiet m) : KeepsU a b o m :=
  fun s _ hu => hu.of_profiles (h s).profiles

theorem KeepsU.set (e : Env) {a b : Addr} {o p : Profile} (hp : b = a → o.activeUntil = none → p.activeUntil = none) :
    KeepsU a b o (setProfile e b p) :=
  fun _ hs hu => setProfile_unsub e hu fun hb => hp hb (hu o (hb ▸ hs))

theorem PresU.read {a b : Addr} {β : Type} {f : State → Profile → M State β}
    (h : ∀ s o, KeepsU a b o (f s o)) : PresU a (M.get >>= fun s => M.orPanic (s.profiles.get b) >>= f s) := by
  intro s hu
  show Unsub a ((M.orPanic (s.profiles.get b) >>= f s) s).2
  rcases hs : s.profiles.get b with _ | o
  · exact hu
  · exact h s o s hs hu

theorem PresU.errIf {a : Addr} {β : Type} {c : Bool} {f : Unit → M State β} (h : PresU a (f ())) : PresU a (M.errIf c >>= f) := by
  intro s hu
  cases c
  · exact h s hu
  · exact hu

theorem payTariff_presU (e : Env) {a b : Addr} (g : Nat) {auto : Bool} (hb : b = a → auto = true) : PresU a (payTariff e b g auto) := by
  refine .read fun s o => .bind (.errIf _) fun _ => .bind (.orPanic _) fun q => .bind (comeBack_quiet _ _) fun _ =>
    .bind (payTotal_quiet _ _ _ _) fun _ => .bind' (.orPanic _) fun p hp => .bind (schedule_quiet _ _ _) fun _ => .set e fun hba ho => ?_
  obtain ⟨s1, t1, hp⟩ := hp
  obtain ⟨hp, -⟩ := M.orPanic_ok_iff.1 hp
  rw [(renewed_id hp).2.2, hb hba, ho]
  simp

theorem buyStorage_presU (e : Env) (a b : Addr) (g : Nat) : PresU a (buyStorage e b g) :=
  .errIf <| .read fun _ _ => .bind (.errIf _) fun _ => .bind (.orPanic _) fun _ => .bind (.orPanic _) fun _ =>
    .bind (.panicIf _) fun _ => .bind (paySplit_quiet _ _ _) fun _ => .set e fun _ h => h

theorem buyVpn_presU (e : Env) (a b : Addr) (g : Nat) : PresU a (buyVpn e b g) :=
  .errIf <| .read fun _ _ => .bind (.errIf _) fun _ => .bind (.orPanic _) fun _ => .bind (.orPanic _) fun _ =>
    .bind (paySplit_quiet _ _ _) fun _ => .set e fun _ h => h

theorem buyIm_presU (e : Env) (a b : Addr) (g : Nat) : PresU a (buyIm e b g) := by
  refine .errIf <| .read fun s o => .bind (.orPanic _) fun _ => .bind (.orPanic _) fun _ =>
    .bind (.panicIf _) fun _ => .bind (paySplit_quiet _ _ _) fun _ => ?_
  split
  · exact .set e fun _ h => h
  · exact .bind (schedule_quiet _ _ _) fun _ => .set e fun _ h => h

theorem giveStorageUp_presU (e : Env) (a b : Addr) (g : Nat) : PresU a (giveStorageUp e b g) :=
  .errIf <| .read fun _ _ => .bind (.errIf _) fun _ => .bind (.errIf _) fun _ => .set e fun _ h => h

theorem giveImUp_presU (e : Env) (a b : Addr) (g : Nat) : PresU a (giveImUp e b g) := by
  refine .read fun s o => .bind (.errIf _) fun _ => ?_
  split
  · exact .bind (deleteIm_quiet _ _) fun _ => .set e fun _ h => h
  · exact .set e fun _ h => h

theorem prolongIm_presU (e : Env) (a b : Addr) : PresU a (prolongIm e b) := by
  refine .read fun _ o => .bind' (prolong_quiet _ _ _) fun p hp => .set e fun _ h => ?_
  obtain ⟨s, t, hh⟩ := hp
  rw [(prolong_profile hh).2.2]; exact h

theorem monthlyIm_presU (e : Env) (a b : Addr) : PresU a (monthlyIm e b) := by
  refine .read fun _ o => .bind' (.onErr ?_ (.pure _)) fun p hp => .set e fun _ h => ?_
  · split
    · exact prolong_quiet _ _ _
    · exact .err
  · obtain ⟨s, t, hh⟩ := hp
    unfold onErr at hh
    rcases hr : (if o.autoPayImExtra then prolong e b o else M.err) s with ⟨r, s'⟩
    rw [hr] at hh
    cases r with
    | ok x =>
      simp only [Prod.mk.injEq, Res.ok.injEq] at hh
      obtain ⟨rfl, rfl⟩ := hh
      split at hr
      · rw [(prolong_profile hr).2.2]; exact h
      · simp at hr
    | err =>
      simp only [M.pure_apply, Prod.mk.injEq, Res.ok.injEq] at hh
      rw [← hh.1]; exact h
    | panic => simp at hh

theorem monthly_presU (e : Env) (a b : Addr) : PresU a (monthly e b) := by
  refine .read fun s o => ?_
  split
  · exact .set e fun _ h => by rw [(resetLimits_id s.params o).2.2]; exact h
  · split
    · intro w _ hu
      have h := payTariff_presU e (a := a) (b := b) 0 (auto := true) (fun _ => rfl) w hu
      unfold onErr
      rcases hh : payTariff e b 0 true w with ⟨r, w'⟩
      rw [hh] at h
      cases r with
      | ok x => exact h
      | err => exact h.of_profiles (onReferral_quiet (e.setActive b false) w').profiles
      | panic => exact h
    · exact .quiet (onReferral_quiet _)

theorem updateProfile_presU (e : Env) (a b : Addr) (us : List Update) : PresU a (updateProfile e b us) :=
  .errIf <| .errIf <| .read fun _ o => .set e fun _ h => by rw [(apply_foldl us o).2]; exact h

theorem storeProfile_unsub {a b : Addr} {o p : Profile} {s : State} (hu : Unsub a s) (ho : s.profiles.get b = some o)
    (hp : p.activeUntil = o.activeUntil) : Unsub a (storeProfile b p s).2 := by
  intro q hq
  simp only [storeProfile, M.modify_apply, KV.get_set] at hq
  split at hq
  · next hb => injection hq with hq; subst hq; subst hb; rw [hp]; exact hu o ho
  · exact hu q hq

theorem setStorageCurrent_presU (a x b : Addr) (v : Nat) : PresU a (setStorageCurrent x b v) := by
  intro s hu
  unfold setStorageCurrent
  rw [M.bind_ok (M.get_apply s), errIf_cases]
  split
  · exact hu
  · rcases hp : s.profiles.get b with _ | o
    · exact hu
    · exact storeProfile_unsub hu hp rfl

theorem setVpnCurrent_presU (a x b : Addr) (v : Nat) : PresU a (setVpnCurrent x b v) := by
  intro s hu
  unfold setVpnCurrent
  rw [M.bind_ok (M.get_apply s), errIf_cases]
  split
  · exact hu
  · rcases hp : s.profiles.get b with _ | o
    · exact hu
    · exact storeProfile_unsub hu hp rfl

theorem txU {a : Addr} {α : Type} {m : M State α} (h : PresU a m) {s : State} (hu : Unsub a s) : Unsub a (M.tx m s) := by
  rcases M.tx_cases m s with ⟨x, hx⟩ | ⟨-, hx⟩
  · have := h s hu; rw [hx] at this; exact this
  · rw [hx]; exact hu

theorem createAccount_unsub {e : Env} {a c b r : Addr} {p : Option Profile} {s t : State} {u : Unit}
    (h : createAccount e c b r p s = (.ok u, t)) (hu : Unsub a s) (hp : b = a → ∀ q, p = some q → q.activeUntil = none) : Unsub a t := by
  obtain ⟨s1, s2, h0, q1, q2, h⟩ := createAccount_parts h
  have u2 : Unsub a s2 := (hu.of_profiles q1.profiles : Unsub a s1).of_profiles q2.profiles
  have := setProfile_unsub e (b := b) (p := { p.getD {} with cardNumber := s.nextAcc ^^^ s.params.cardMagic }) u2 fun hb => by
    cases p with
    | none => rfl
    | some q => exact hp hb q rfl
  rw [h] at this; exact this

theorem addAccounts_profiles (l : List Addr) (s : State) : (addAccounts l s).profiles = s.profiles := by
  induction l generalizing s with
  | nil => rfl
  | cons a l ih => unfold addAccounts; rw [ih]; split <;> rfl

theorem runTasks_unsub (e : Schedule.Task → Env) (f : Schedule.Task → Foreign) (a : Addr) (l : List Schedule.Task) {s : State}
    (hu : Unsub a s) : Unsub a (runTasks e f l s) := by
  induction l generalizing s with
  | nil => exact hu
  | cons t l ih =>
    refine ih ?_
    unfold runTask
    split
    · exact monthly_presU _ _ _ s hu
    · split
      · exact monthlyIm_presU _ _ _ s hu
      · exact hu.of_profiles (addAccounts_profiles _ _)

/-- Operations that do not pay a tariff for `a` and do not create `a` with a subscription in the message. -/
def Op.Unpaid (a : Addr) : Op → Prop
  | .payTariff b _ => b ≠ a
  | .createAccount _ b _ p => b = a → ∀ q, p = some q → q.activeUntil = none
  | _ => True

theorem run_unsub (e : Env) {a : Addr} (op : Op) (hop : op.Unpaid a) {s : State} (hu : Unsub a s) : Unsub a (op.run e s) := by
  cases op with
  | createAccount c b r p =>
    rcases M.tx_cases (createAccount e c b r p) s with ⟨x, hx⟩ | ⟨-, hx⟩
    · exact createAccount_unsub hx hu hop
    · dsimp only [Op.run]; rw [hx]; exact hu
  | updateProfile b us => exact txU (updateProfile_presU e a b us) hu
  | setStorageCurrent x b v => exact txU (setStorageCurrent_presU a x b v) hu
  | setVpnCurrent x b v => exact txU (setVpnCurrent_presU a x b v) hu
  | setRate x v =>
    refine txU (fun s hu => ?_) hu
    unfold setRate
    rw [M.bind_ok (M.get_apply s), errIf_cases]
    split
    · exact hu
    · rcases hv : ({ s.params with tokenRate := v } : Params).valid with _ | _ <;> exact hu
  | setParams p =>
    refine txU (fun s hu => ?_) hu
    unfold setParams
    rw [M.bind_ok (M.get_apply s)]
    rcases hv : (decide (p.cardMagic ≠ s.params.cardMagic ∧ p.cardMagic ≠ 0) || !p.valid) with _ | _ <;> exact hu
  | payTariff b g => exact txU (payTariff_presU e g (fun h => absurd h hop)) hu
  | buyStorage b g => exact txU (buyStorage_presU e a b g) hu
  | buyIm b g => exact txU (buyIm_presU e a b g) hu
  | buyVpn b g => exact txU (buyVpn_presU e a b g) hu
  | giveStorageUp b g => exact txU (giveStorageUp_presU e a b g) hu
  | giveImUp b g => exact txU (giveImUp_presU e a b g) hu
  | prolongIm b => exact txU (prolongIm_presU e a b) hu
  | foreign f => exact hu.of_profiles (addAccounts_profiles _ _)
  | block e' f now => exact runTasks_unsub e' f a _ (s := { s with now := now }) hu

/-- Executions of such operations from a state in which `a` has no profile. -/
inductive UnpaidFrom (a : Addr) (s : State) : State → Prop where
  | refl : UnpaidFrom a s s
  | step {t : State} (e : Env) (op : Op) (hop : op.Unpaid a) (h : UnpaidFrom a s t) : UnpaidFrom a s (op.run e t)

theorem UnpaidFrom.unsub {a : Addr} {s t : State} (h0 : s.profiles.get a = none) (h : UnpaidFrom a s t) : Unsub a t := by
  induction h with
  | refl => intro q hq; rw [h0] at hq; cases hq
  | step e op hop _ ih => exact run_unsub e op hop ih

/-- **C42 (partial).** Whatever happens, an account has no subscription until a tariff is paid for it — unless the message that
created it carried one. -/
theorem C42_unpaid_partial {a : Addr} {s t : State} (h0 : s.profiles.get a = none) (h : UnpaidFrom a s t) {p : Profile}
    (hp : t.profiles.get a = some p) : p.isActive t.now = false ∧ p.activeUntil = none := by
  have h1 := UnpaidFrom.unsub h0 h p hp
  exact ⟨by unfold Profile.isActive; rw [h1], h1⟩

/-! ### A concrete chain -/

def isBlank (c : Nat) : Bool := decide (c = 32 ∨ (9 ≤ c ∧ c ≤ 13))
def lowerCode (c : Nat) : Nat := if 65 ≤ c ∧ c ≤ 90 then c + 32 else c

/-- The text functions on ASCII. -/
def ascii : TextOps where
  lower t := t.map lowerCode
  trim t := (t.dropWhile isBlank).rdropWhile isBlank
  reserved t := decide ((t.take 5).map (fun c => if 97 ≤ c ∧ c ≤ 122 then c - 32 else c) = [65, 82, 84, 82, 45])

theorem isBlank_lower (c : Nat) : isBlank (lowerCode c) = isBlank c := by
  unfold isBlank lowerCode
  split
  · simp only [decide_eq_decide]; omega
  · rfl

theorem dropWhile_map' (l : Text) : (l.map lowerCode).dropWhile isBlank = (l.dropWhile isBlank).map lowerCode := by
  induction l with
  | nil => rfl
  | cons c l ih =>
    simp only [List.map_cons, List.dropWhile_cons, isBlank_lower]
    split
    · exact ih
    · rfl

theorem rdropWhile_map' (l : Text) : (l.map lowerCode).rdropWhile isBlank = (l.rdropWhile isBlank).map lowerCode := by
  unfold List.rdropWhile
  rw [← List.map_reverse, dropWhile_map', List.map_reverse]

theorem ascii_ok : TextOk ascii where
  trim_trim x := by
    show ((((x.dropWhile isBlank).rdropWhile isBlank).dropWhile isBlank).rdropWhile isBlank) = (x.dropWhile isBlank).rdropWhile isBlank
    have key : ∀ y : Text, (y.dropWhile isBlank = y) → (y.rdropWhile isBlank).dropWhile isBlank = y.rdropWhile isBlank := by
      intro y hy
      rcases hz : y.rdropWhile isBlank with _ | ⟨c, z⟩
      · rfl
      · have hp : (c :: z) <+: y := by rw [← hz]; exact List.rdropWhile_prefix _ _
        obtain ⟨w, rfl⟩ := hp
        rw [List.cons_append, List.dropWhile_cons] at hy
        rw [List.dropWhile_cons]
        split at hy
        · next hb =>
          have := congrArg List.length hy
          have h2 := List.length_dropWhile_le isBlank (z ++ w)
          simp at this h2; omega
        · next hb => rw [if_neg hb]
    rw [key _ (List.dropWhile_idempotent _ _), List.rdropWhile_idempotent]
  lower_trim x := by
    show ((x.dropWhile isBlank).rdropWhile isBlank).map lowerCode = (((x.map lowerCode).dropWhile isBlank).rdropWhile isBlank)
    rw [dropWhile_map', rdropWhile_map']
  lower_nil x := by show x.map lowerCode = [] ↔ x = []; simp

def exampleBank : Bank.State :=
  ⟨((KV.empty.set 5 ⟨1000000000000, 0, 0, 0⟩).set 7 ⟨1000000000000, 0, 0, 0⟩), ⟨2000000000000, 0, 0, 0⟩,
   ⟨1000, 10, ⟨⟨3, 1000⟩, 10000000, ⟨1, 2⟩, ⟨3, 10⟩⟩, 9, [77]⟩⟩

def exampleState : State where
  bank := exampleBank
  sched := ⟨KV.empty, 0⟩
  profiles := KV.empty
  aliases := KV.empty
  cards := KV.empty
  accounts := KV.empty.set 5 0
  nextAcc := 1
  params := { vpnSigners := [8] }
  now := 1000

/-- A month has 30 days. -/
def exampleMonth : Int := 2592000000000000

def exampleEnv : Env where
  bank := Bank.exampleEnv
  text := ascii
  month := exampleMonth
  banished _ := some false
  comeBack _ := (.ok (), [])
  setActive _ _ := (.ok (), [])
  appendChild _ _ := (.ok (), [])
  company := 9

def exampleForeign : Foreign := ⟨id, [], []⟩

def Op.runAll (e : Env) : List Op → State → State
  | [], s => s
  | op :: l, s => runAll e l (op.run e s)

theorem exampleStart : Start exampleState := by
  refine ⟨rfl, ⟨fun a n h => ?_, fun a b n h h' => ?_⟩⟩
  · simp only [exampleState, KV.get_set, KV.get_empty] at h ⊢
    split at h
    · injection h with h; omega
    · cases h
  · simp only [exampleState, KV.get_set, KV.get_empty] at h h'
    split at h
    · split at h'
      · next h1 h2 => rw [h1, h2]
      · cases h'
    · cases h

theorem runAll_reachable (l : List Op) {s : State} (h : Reachable ascii s) : Reachable ascii (Op.runAll exampleEnv l s) := by
  induction l generalizing s with
  | nil => exact h
  | cons op l ih => exact ih (.step exampleEnv rfl op h)

/-- " bob", "bob", "BOB", "carol" -/
def bobBlank : Text := [32, 98, 111, 98]
def bob : Text := [98, 111, 98]
def bobUpper : Text := [66, 79, 66]
def carol : Text := [99, 97, 114, 111, 108]

/-- **C39 is false as stated**: a nickname with a blank, sent along with the creation of an account, is held but not found. -/
theorem C39_lookup_fails : ∃ s, Reachable ascii s ∧ ∃ a p, s.profiles.get a = some p ∧ ascii.trim p.nickname ≠ [] ∧
    byNickname exampleEnv s p.nickname = none := by
  refine ⟨_, runAll_reachable [.createAccount 5 7 5 (some { nickname := bobBlank })] (.start exampleStart), 7,
    { nickname := bobBlank, cardNumber := 1 ^^^ 0x1A21A4B61B }, ?_, ?_, ?_⟩ <;> decide +kernel

/-- And a nickname once held in that way stays taken after it was given up: nobody holds "bob", but another account cannot have it. -/
theorem C39_stale_entry : ∃ s, Reachable ascii s ∧
    (∀ p ∈ s.profiles.values, ascii.lower (ascii.trim p.nickname) ≠ bob) ∧
    byNickname exampleEnv s bob = some 7 ∧
    (createAccount exampleEnv 5 6 5 (some { nickname := bob }) s).1 = .err := by
  refine ⟨_, runAll_reachable [.createAccount 5 7 5 (some { nickname := bobBlank }), .updateProfile 7 [.nickname carol]] (.start exampleStart), ?_, ?_, ?_⟩ <;>
    decide +kernel

-- two accounts, nicknames in different letter case
example : (createAccount exampleEnv 5 7 5 (some { nickname := bob }) exampleState).1 = .ok () ∧
    (createAccount exampleEnv 5 6 5 (some { nickname := bobUpper }) (Op.runAll exampleEnv [.createAccount 5 7 5 (some { nickname := bob })] exampleState)).1 = .err ∧
    (createAccount exampleEnv 5 6 5 (some { nickname := carol }) (Op.runAll exampleEnv [.createAccount 5 7 5 (some { nickname := bob })] exampleState)).1 = .ok () ∧
    byNickname exampleEnv (Op.runAll exampleEnv [.createAccount 5 7 5 (some { nickname := bob })] exampleState) bobUpper = some 7 ∧
    byCard (Op.runAll exampleEnv [.createAccount 5 7 5 (some { nickname := bob })] exampleState) (1 ^^^ 0x1A21A4B61B) = some 7 := by
  decide +kernel

/-- **C42 is false as stated**: the message that creates an account may carry a subscription; nothing is paid but the price of the
account. -/
theorem C42_free_subscription : ∃ s, Reachable ascii s ∧ s.profiles.get 7 = none ∧
    (createAccount exampleEnv 5 7 5 (some { activeUntil := some 4000000000000000000 }) s).1 = .ok () ∧
    (((M.tx (createAccount exampleEnv 5 7 5 (some { activeUntil := some 4000000000000000000 })) s).profiles.get 7).map (·.isActive s.now)) = some true ∧
    (balance (M.tx (createAccount exampleEnv 5 7 5 (some { activeUntil := some 4000000000000000000 })) s).bank 9).main = 0 := by
  refine ⟨exampleState, .start exampleStart, ?_, ?_, ?_, ?_⟩ <;> decide +kernel

/-- **C48 is false as stated**: such a subscription has no renewal task, so that its end is never noticed. -/
theorem C48_no_renewal : ∃ s, Reachable ascii s ∧ ∃ a p u, s.profiles.get a = some p ∧ p.activeUntil = some u ∧ s.now < u ∧
    ∀ x, ¬ Pending s.sched x := by
  refine ⟨_, runAll_reachable [.createAccount 5 7 5 (some { activeUntil := some 4000000000000000000 })] (.start exampleStart), 7,
    { activeUntil := some 4000000000000000000, cardNumber := 1 ^^^ 0x1A21A4B61B }, 4000000000000000000, ?_, rfl, ?_, ?_⟩
  · decide +kernel
  · decide +kernel
  · rintro x ⟨l, hl, -⟩
    have : (Op.runAll exampleEnv [.createAccount 5 7 5 (some { activeUntil := some 4000000000000000000 })] exampleState).sched.store.entries = [] := by
      decide +kernel
    have hm := KV.mem_entries.2 hl
    rw [this] at hm; cases hm

/-- An account that has paid one month, and the same a second after the end of that month, having used 15 GB of traffic. -/
def paidOnce : List Op := [.createAccount 5 7 5 none, .payTariff 7 0]
def secondMonth : List Op := paidOnce ++ [.setVpnCurrent 8 7 (15 * 1073741824),
  .block (fun _ => exampleEnv) (fun _ => exampleForeign) (exampleState.now + exampleMonth + 1000000000), .payTariff 7 0]

-- C41 on these: 199 ARTR are paid, of which the pool gets the fee
example : (payTariff exampleEnv 7 0 false (Op.runAll exampleEnv [.createAccount 5 7 5 none] exampleState)).1 = .ok () ∧
    (balance (Op.runAll exampleEnv paidOnce exampleState).bank 7).main = 1000000000000 - 199000000 ∧
    (balance (Op.runAll exampleEnv paidOnce exampleState).bank 9).main = 199000000 - 597000 ∧
    (balance (Op.runAll exampleEnv paidOnce exampleState).bank 2).main = 597000 ∧
    ((Op.runAll exampleEnv paidOnce exampleState).profiles.get 7).bind (·.activeUntil) = some (1000 + exampleMonth) := by
  decide +kernel

-- C48 on these: one task is pending
example : (Op.runAll exampleEnv paidOnce exampleState).sched.store.entries = [(1000 + exampleMonth, [⟨1000 + exampleMonth, refreshHook, [7], 0⟩])] := by
  decide +kernel

/-- **C43 is false as stated**: an account that used more traffic than it was entitled to gets an almost unlimited allowance for
the next month. -/
theorem C43_wraps : ∃ s, Reachable ascii s ∧ ∃ a p, s.profiles.get a = some p ∧ s.params.baseVpnGb = 7 ∧
    p.vpnLimit = 2 ^ 64 - 1073741824 := by
  refine ⟨_, runAll_reachable secondMonth (.start exampleStart), 7,
    { activeUntil := some (exampleState.now + exampleMonth + 1000000000 + exampleMonth), cardNumber := 1 ^^^ 0x1A21A4B61B,
      vpnLimit := 2 ^ 64 - 1073741824, storageLimit := 5 * 1073741824 }, ?_, ?_, rfl⟩ <;> decide +kernel

-- C43 where it holds: 9 GB used of 10
example : (resetLimits {} { vpnLimit := 10 * 1073741824, vpnCurrent := 9 * 1073741824 }).vpnLimit = 8 * 1073741824 := by decide +kernel

/-- **C47 is false as stated**: asking for 1717986725 GB of storage makes the 64-bit product wrap around, and the month costs
0.6 ARTR instead of 199 (the transaction fee takes most of it). -/
theorem C47_cheap_month : ∃ s, Reachable ascii s ∧
    (payTariff exampleEnv 7 1717986725 false s).1 = .ok () ∧
    (((M.tx (payTariff exampleEnv 7 1717986725 false) s).profiles.get 7).map (·.isActive s.now)) = some true ∧
    (balance s.bank 7).main - (balance (M.tx (payTariff exampleEnv 7 1717986725 false) s).bank 7).main = 600000 := by
  refine ⟨_, runAll_reachable [.createAccount 5 7 5 none] (.start exampleStart), ?_, ?_, ?_⟩ <;> decide +kernel

-- C47 where it holds: 6 GB, one more than the base allowance
example : (balance (Op.runAll exampleEnv [.createAccount 5 7 5 none, .payTariff 7 6] exampleState).bank 7).main = 1000000000000 - 200000000 := by
  decide +kernel

-- C44: 20 GB bought on top of 5, then reduced to 10; not below the base; not above the limit
example : (giveStorageUp exampleEnv 7 10 (Op.runAll exampleEnv (paidOnce ++ [.buyStorage 7 20]) exampleState)).1 = .ok () ∧
    ((Op.runAll exampleEnv (paidOnce ++ [.buyStorage 7 20, .giveStorageUp 7 10]) exampleState).profiles.get 7).map (·.storageLimit) = some (10 * 1073741824) ∧
    ((Op.runAll exampleEnv (paidOnce ++ [.buyStorage 7 20, .giveStorageUp 7 2]) exampleState).profiles.get 7).map (·.storageLimit) = some (5 * 1073741824) ∧
    (giveStorageUp exampleEnv 7 30 (Op.runAll exampleEnv (paidOnce ++ [.buyStorage 7 20]) exampleState)).1 = .err := by
  decide +kernel

end Verif.Profile
