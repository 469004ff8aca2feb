import Verif.Profile.Props
import Verif.Base.Rebuild

/-! Property C56: export and import of the profile module. -/
namespace Verif.Profile
open Verif.Util Verif.Bank

/-- `ExportProfileRecords`, keeper/genesis.go:14-32: all profiles, without the card numbers. -/
def exportRecords (s : State) : List (Addr × Profile) := s.profiles.entries.map fun x => (x.1, { x.2 with cardNumber := 0 })

/-- `if err := …; err != nil { panic(err) }` -/
def must (m : M State Unit) : M State Unit := fun s =>
  match m s with
  | (.err, t) => (.panic, t)
  | x => x

/-- One turn of the loop of `ImportProfileRecords`, keeper/genesis.go:36-65.  The account is asked for its number before it is
compared with nil, so a profile without account panics (lines 38, 39, 54).  `quiet`: `MustSetActiveWithoutStatusUpdate` of the
referral keeper. -/
def importRecord (e : Env) (quiet : Addr → RefCall) (a : Addr) (p0 : Profile) : M State Unit := do
  let s ← M.get
  let n ← M.orPanic (s.accounts.get a)
  let p := { p0 with cardNumber := n ^^^ s.params.cardMagic }
  when (decide (e.text.trim p.nickname ≠ [])) (setAlias e (e.text.trim p.nickname) a)
  setCard p.cardNumber a
  storeProfile a p
  when (p.isActive s.now) (onReferral (quiet a))
  must (setProfile e a p)

/-- `ImportProfileRecords`, keeper/genesis.go:34-72; `iterate`: the update of the statuses at the end.  The card magic is part of
the parameters, which are imported first (genesis.go:13). -/
def importRecords (e : Env) (quiet : Addr → RefCall) (iterate : RefCall) (l : List (Addr × Profile)) : M State Unit := do
  M.forEach l fun x => importRecord e quiet x.1 x.2
  onReferral iterate

/-! ### Stored nicknames are acceptable ones -/

/-- No stored nickname (without surrounding blanks) has the reserved prefix. -/
def Clear (T : TextOps) (s : State) : Prop :=
  ∀ a p, s.profiles.get a = some p → T.trim p.nickname = [] ∨ T.reserved (T.trim p.nickname) = false

theorem Clear.of_profiles {T : TextOps} {s t : State} (h : Clear T s) (ht : t.profiles = s.profiles) : Clear T t := by
  intro a p hp; rw [ht] at hp; exact h a p hp

theorem Quiet.clear {T : TextOps} {α : Type} {m : M State α} (h : Quiet m) : M.Preserves (Clear T) m :=
  fun s hs => hs.of_profiles (h s).profiles

theorem Framed.clear {T : TextOps} {α : Type} {m : M State α} (h : Framed m) : M.Preserves (Clear T) m :=
  fun s hs => hs.of_profiles (h s).profiles

theorem setProfile_clear {T : TextOps} {e : Env} (he : e.text = T) (a : Addr) (p : Profile) : M.Preserves (Clear T) (setProfile e a p) := by
  intro s hs
  unfold setProfile
  rw [M.bind_ok (M.get_apply s), errIf_cases]
  split
  · exact hs
  rename_i hn
  have hp : T.trim p.nickname = [] ∨ T.reserved (T.trim p.nickname) = false := by
    have hn' : nicknameOk e s a (e.text.trim p.nickname) = true := by simpa using hn
    unfold nicknameOk at hn'
    rw [he] at hn'
    simp only [Bool.or_eq_true, decide_eq_true_eq, Bool.and_eq_true, Bool.not_eq_true'] at hn'
    rcases hn' with h | h
    · exact .inl h
    · exact .inr h.1
  have : M.Preserves (Clear T) (updateAlias e a (s.profiles.get a) p.nickname >>= fun _ => updateCard a (s.profiles.get a) p.cardNumber >>= fun c =>
      storeProfile a { p with cardNumber := c } >>= fun _ => ensureAccount a >>= fun _ => tellReferral e a (s.profiles.get a) p) := by
    refine .bind (updateAlias_framed e a _ _).clear fun _ => .bind (updateCard_framed a _ _).clear fun c =>
      .bind (.modify fun t ht b q hq => ?_) fun _ => .bind (ensureAccount_framed a).clear fun _ => (tellReferral_quiet e a _ p).clear
    dsimp only at hq
    rw [KV.get_set] at hq
    split at hq
    · injection hq with hq; subst hq; exact hp
    · exact ht b q hq
  exact this s hs

theorem createAccount_clear {T : TextOps} {e : Env} (he : e.text = T) (c a r : Addr) (p : Option Profile) :
    M.Preserves (Clear T) (createAccount e c a r p) := by
  refine .bind .get fun s => .bind (.errIf _) fun _ => .bind (Quiet.when (chargeFee_quiet e _ _)).clear fun _ => ?_
  exact .bind (newAccount_framed a).clear fun n => .bind (onReferral_quiet _).clear fun _ => .bind .get fun s => setProfile_clear he _ _

theorem payTariff_clear {T : TextOps} {e : Env} (he : e.text = T) (a : Addr) (g : Nat) (auto : Bool) :
    M.Preserves (Clear T) (payTariff e a g auto) :=
  .bind .get fun s => .bind (.orPanic _) fun pr => .bind (.errIf _) fun _ => .bind (.orPanic _) fun q => .bind (comeBack_quiet e a).clear fun _ =>
    .bind (payTotal_quiet e a _ _).clear fun _ => .bind (.orPanic _) fun pr2 => .bind (schedule_quiet _ _ _).clear fun _ => setProfile_clear he _ _

theorem set_same_clear {T : TextOps} {a : Addr} {p q : Profile} {s : State} (h : Clear T s) (hp : s.profiles.get a = some p)
    (hn : q.nickname = p.nickname) : Clear T { s with profiles := s.profiles.set a q } := by
  intro b r hr
  dsimp only at hr
  rw [KV.get_set] at hr
  split at hr
  · injection hr with hr
    subst hr
    rw [hn]
    exact h a p hp
  · exact h b r hr

theorem onErr_clear {T : TextOps} {α : Type} {m h : M State α} (hm : M.Preserves (Clear T) m) (hh : M.Preserves (Clear T) h) :
    M.Preserves (Clear T) (onErr m h) := by
  intro s hs
  have h1 := hm s hs
  unfold onErr
  cases hr : m s with
  | mk r t =>
    rw [hr] at h1
    cases r with
    | ok a => exact h1
    | err => exact hh t h1
    | panic => exact h1

theorem monthly_clear {T : TextOps} {e : Env} (he : e.text = T) (a : Addr) : M.Preserves (Clear T) (monthly e a) := by
  refine .bind .get fun s => .bind (.orPanic _) fun pr => ?_
  split
  · exact setProfile_clear he _ _
  · split
    · exact onErr_clear (payTariff_clear he _ _ _) (onReferral_quiet _).clear
    · exact (onReferral_quiet _).clear

theorem monthlyIm_clear {T : TextOps} {e : Env} (he : e.text = T) (a : Addr) : M.Preserves (Clear T) (monthlyIm e a) := by
  refine .bind .get fun s => .bind (.orPanic _) fun pr => .bind (onErr_clear ?_ (.pure _)) fun _ => setProfile_clear he _ _
  split
  · exact (prolong_quiet e a pr).clear
  · exact Quiet.err.clear

/-- Operations of a block use the same text functions too. -/
def Op.Text (T : TextOps) : Op → Prop
  | .block e _ _ => ∀ t, (e t).text = T
  | _ => True

theorem runTasks_clear {T : TextOps} {e : Schedule.Task → Env} (he : ∀ t, (e t).text = T) (f : Schedule.Task → Foreign) :
    ∀ (l : List Schedule.Task) {s : State}, Clear T s → Clear T (runTasks e f l s)
  | [], _, h => h
  | t :: ts, s, h => by
    refine runTasks_clear he f ts ?_
    unfold runTask
    split
    · exact monthly_clear (he t) _ s h
    · split
      · exact monthlyIm_clear (he t) _ s h
      · exact h.of_profiles (addAccounts_profiles _ _)

theorem run_clear {T : TextOps} {e : Env} (he : e.text = T) (op : Op) (hop : op.Text T) {s : State} (h : Clear T s) : Clear T (op.run e s) := by
  cases op with
  | createAccount c a r p => exact (createAccount_clear he c a r p).tx h
  | updateProfile a us =>
    exact (M.Preserves.bind (.errIf _) fun _ => .bind (.errIf _) fun _ => .bind .get fun s => .bind (.orPanic _) fun p => setProfile_clear he _ _).tx h
  | setStorageCurrent x a v =>
    have : M.Preserves (Clear T) (setStorageCurrent x a v) := by
      intro s hs
      unfold setStorageCurrent
      rw [M.bind_ok (M.get_apply s), errIf_cases]
      split
      · exact hs
      · cases hp : s.profiles.get a with
        | none => exact hs
        | some p => exact set_same_clear hs hp rfl
    exact this.tx h
  | setVpnCurrent x a v =>
    have : M.Preserves (Clear T) (setVpnCurrent x a v) := by
      intro s hs
      unfold setVpnCurrent
      rw [M.bind_ok (M.get_apply s), errIf_cases]
      split
      · exact hs
      · cases hp : s.profiles.get a with
        | none => exact hs
        | some p => exact set_same_clear hs hp rfl
    exact this.tx h
  | setRate x v =>
    have : M.Preserves (Clear T) (setRate x v) := .bind .get fun s => .bind (.errIf _) fun _ => .bind (.panicIf _) fun _ => .modify fun _ hs => hs
    exact this.tx h
  | setParams p =>
    have : M.Preserves (Clear T) (setParams p) := .bind .get fun s => .bind (.panicIf _) fun _ => .modify fun _ hs => hs
    exact this.tx h
  | payTariff a g => exact (payTariff_clear he a g false).tx h
  | buyStorage a g =>
    exact (M.Preserves.bind (.errIf _) fun _ => .bind .get fun s => .bind (.orPanic _) fun p => .bind (.errIf _) fun _ => .bind (.orPanic _) fun t =>
      .bind (.orPanic _) fun fee => .bind (.panicIf _) fun _ => .bind (paySplit_quiet e a _).clear fun _ => setProfile_clear he _ _).tx h
  | buyIm a g =>
    refine (M.Preserves.bind (.errIf _) fun _ => .bind .get fun s => .bind (.orPanic _) fun p => .bind (.orPanic _) fun t =>
      .bind (.orPanic _) fun fee => .bind (.panicIf _) fun _ => .bind (paySplit_quiet e a _).clear fun _ => ?_).tx h
    split
    · exact setProfile_clear he _ _
    · exact .bind (schedule_quiet _ _ _).clear fun _ => setProfile_clear he _ _
  | buyVpn a g =>
    exact (M.Preserves.bind (.errIf _) fun _ => .bind .get fun s => .bind (.orPanic _) fun p => .bind (.errIf _) fun _ => .bind (.orPanic _) fun x =>
      .bind (.orPanic _) fun fee => .bind (paySplit_quiet e a _).clear fun _ => setProfile_clear he _ _).tx h
  | giveStorageUp a g =>
    exact (M.Preserves.bind (.errIf _) fun _ => .bind .get fun s => .bind (.orPanic _) fun p => .bind (.errIf _) fun _ => .bind (.errIf _) fun _ =>
      setProfile_clear he _ _).tx h
  | giveImUp a g =>
    refine (M.Preserves.bind .get fun s => .bind (.orPanic _) fun p => .bind (.errIf _) fun _ => ?_).tx h
    split
    · exact .bind (deleteIm_quiet _ _).clear fun _ => setProfile_clear he _ _
    · exact setProfile_clear he _ _
  | prolongIm a =>
    exact (M.Preserves.bind .get fun s => .bind (.orPanic _) fun p => .bind (prolong_quiet e a p).clear fun _ => setProfile_clear he _ _).tx h
  | foreign f => exact h.of_profiles (addAccounts_profiles _ _)
  | block e' f now => exact runTasks_clear hop f (dueTasks now s.sched) (s := { s with now := now }) h

/-- Executions in which all parts use the same text functions (there is only one `strings` package). -/
inductive TextReachable (T : TextOps) : State → Prop where
  | start {s : State} (h : Start s) : TextReachable T s
  | step {s : State} (e : Env) (he : e.text = T) (op : Op) (hop : op.Text T) (h : TextReachable T s) : TextReachable T (op.run e s)

theorem TextReachable.reachable {T : TextOps} {s : State} (h : TextReachable T s) : Reachable T s := by
  induction h with
  | start h => exact .start h
  | step e he op _ _ ih => exact .step e he op ih

theorem TextReachable.clear {T : TextOps} {s : State} (h : TextReachable T s) : Clear T s := by
  induction h with
  | start h => intro a p hp; rw [h.profiles, KV.get_empty] at hp; cases hp
  | step e he op hop _ ih => exact run_clear he op hop ih

/-! ### The round trip -/

/-- The part of a state that imports do not change. -/
structure Base (s t : State) : Prop where
  accounts : t.accounts = s.accounts
  params : t.params = s.params
  now : t.now = s.now
  bank : t.bank = s.bank
  nextAcc : t.nextAcc = s.nextAcc

theorem Base.refl (s : State) : Base s s := ⟨rfl, rfl, rfl, rfl, rfl⟩
theorem Base.trans {a b c : State} (h : Base a b) (g : Base b c) : Base a c :=
  ⟨g.accounts.trans h.accounts, g.params.trans h.params, g.now.trans h.now, g.bank.trans h.bank, g.nextAcc.trans h.nextAcc⟩

theorem setProfile_stored_ok (e : Env) (a : Addr) {s : State} {p : Profile} (hp : s.profiles.get a = some p) (ha : s.accounts.has a = true)
    (hok : nicknameOk e s a (e.text.trim p.nickname) = true) : setProfile e a p s = (.ok (), s) := by
  have htell : tellReferral e a (some p) p s = (.ok (), s) := by
    unfold tellReferral
    rw [M.bind_ok (M.get_apply s)]
    simp
  rcases setProfile_same e a hp rfl rfl ha with h | h
  · exfalso
    have h1 : updateAlias e a (s.profiles.get a) p.nickname s = (.ok (), s) := by
      rw [hp]; simp [updateAlias]
    have h2 : updateCard a (s.profiles.get a) p.cardNumber s = (.ok p.cardNumber, s) := by
      rw [hp]; unfold updateCard; dsimp only
      split
      · rw [M.bind_ok (a := ()) (s' := s)]
        · rfl
        · simp [when]
      · rfl
    have h3 : storeProfile a { p with cardNumber := p.cardNumber } s = (.ok (), s) := by
      show ((.ok (), { s with profiles := s.profiles.set a p }) : Res Unit × State) = (.ok (), s)
      rw [KV.set_get_eq hp]
    unfold setProfile at h
    rw [M.bind_ok (M.get_apply s), errIf_cases, if_neg (by simp [hok]), M.bind_ok h1, M.bind_ok h2, M.bind_ok h3,
      M.bind_ok (ensureAccount_has ha), hp, htell] at h
    cases h
  · rw [h, KV.set_get_eq hp, htell]

theorem importRecord_ok {e : Env} {quiet : Addr → RefCall} (hq : ∀ a, (quiet a).1 = .ok ()) {a : Addr} {n : Nat} {p : Profile} {t : State}
    (hn : t.accounts.get a = some n) (hc : p.cardNumber = n ^^^ t.params.cardMagic)
    (hr : e.text.trim p.nickname = [] ∨ e.text.reserved (e.text.trim p.nickname) = false) :
    ∃ u, importRecord e quiet a { p with cardNumber := 0 } t = (.ok (), u) ∧ Base t u ∧ u.profiles = t.profiles.set a p ∧
      u.cards = t.cards.set p.cardNumber a ∧
      u.aliases = if e.text.trim p.nickname = [] then t.aliases else t.aliases.set (e.text.lower (e.text.trim p.nickname)) a := by
  have hpe : ({ ({ p with cardNumber := 0 } : Profile) with cardNumber := n ^^^ t.params.cardMagic } : Profile) = p := by rw [← hc]
  let t1 : State := { t with
    aliases := if e.text.trim p.nickname = [] then t.aliases else t.aliases.set (e.text.lower (e.text.trim p.nickname)) a }
  let t3 : State := { t1 with cards := t.cards.set p.cardNumber a, profiles := t.profiles.set a p }
  let t4 : State := { t3 with
    sched := if p.isActive t.now then Schedule.execReqs t.sched ((quiet a).2.filter foreignReq) else t.sched }
  have s1 : when (decide (e.text.trim p.nickname ≠ [])) (setAlias e (e.text.trim p.nickname) a) t = (.ok (), t1) := by
    unfold when
    by_cases h : e.text.trim p.nickname = [] <;> simp [h, t1, setAlias, M.modify_apply]
  have s4 : when (p.isActive t.now) (onReferral (quiet a)) t3 = (.ok (), t4) := by
    unfold when
    cases h : p.isActive t.now with
    | false => simp [h, t4, t3, t1]
    | true => simp [h, t4, t3, t1, onReferral, hq a]
  have s5 : setProfile e a p t4 = (.ok (), t4) := by
    refine setProfile_stored_ok e a (by show (t.profiles.set a p).get a = some p; simp) (has_of_get (by exact hn)) ?_
    unfold nicknameOk
    by_cases h0 : e.text.trim p.nickname = []
    · simp [h0]
    · have hby : byNickname e t4 (e.text.trim p.nickname) = some a := by simp [byNickname, t4, t3, t1, h0]
      rcases hr with h | h
      · exact absurd h h0
      · rw [hby]; simp [h]
  refine ⟨t4, ?_, ⟨rfl, rfl, rfl, rfl, rfl⟩, rfl, rfl, rfl⟩
  unfold importRecord
  rw [M.bind_ok (M.get_apply t), hn, M.bind_ok (M.orPanic_some _ _)]
  simp only [hpe]
  have s2 : setCard p.cardNumber a t1 = (.ok (), { t1 with cards := t.cards.set p.cardNumber a }) := rfl
  have s3 : storeProfile a p { t1 with cards := t.cards.set p.cardNumber a } = (.ok (), t3) := rfl
  rw [M.bind_ok s1, ← hc, M.bind_ok s2, M.bind_ok s3, M.bind_ok s4]
  unfold must
  rw [s5]

theorem entries_nodup {K V : Type} [LinearOrder K] (m : KV K V) : m.entries.Nodup := List.Nodup.of_map _ m.keys_nodup

/-- What the stores must look like once the profiles `l` are imported. -/
structure Holds (T : TextOps) (l : List (Addr × Profile)) (t : State) : Prop where
  profiles : ∀ a p, t.profiles.get a = some p ↔ (a, p) ∈ l
  aliases : ∀ k a, t.aliases.get k = some a ↔ ∃ p, (a, p) ∈ l ∧ T.trim p.nickname ≠ [] ∧ T.lower (T.trim p.nickname) = k
  cards : ∀ c a, t.cards.get c = some a ↔ ∃ p, (a, p) ∈ l ∧ p.cardNumber = c

theorem importRecords_go {e : Env} {quiet : Addr → RefCall} (hq : ∀ a, (quiet a).1 = .ok ()) {s : State} {T : TextOps} (he : e.text = T)
    (hnick : ∀ a b p q, s.profiles.get a = some p → s.profiles.get b = some q → T.trim p.nickname ≠ [] →
      T.lower (T.trim p.nickname) = T.lower (T.trim q.nickname) → a = b)
    (hcard : ∀ a b p q, s.profiles.get a = some p → s.profiles.get b = some q → p.cardNumber = q.cardNumber → a = b)
    (hclear : Clear T s) (hcards : Cards s) :
    ∀ (l l1 : List (Addr × Profile)) (t : State), (∀ x ∈ l1 ++ l, s.profiles.get x.1 = some x.2) → (l1 ++ l).Nodup →
      t.accounts = s.accounts → t.params.cardMagic = s.params.cardMagic → Holds T l1 t →
      ∃ u, M.forEach (l.map fun x => (x.1, { x.2 with cardNumber := 0 })) (fun x => importRecord e quiet x.1 x.2) t = (.ok (), u) ∧
        Base t u ∧ Holds T (l1 ++ l) u
  | [], l1, t, _, _, _, _, h => ⟨t, rfl, Base.refl t, by simpa using h⟩
  | (a, p) :: l, l1, t, hl, hd, hacc, hmag, h => by
    have hap : s.profiles.get a = some p := hl (a, p) (by simp)
    obtain ⟨n, g1, g2, -⟩ := hcards a p hap
    obtain ⟨u, k1, k2, k3, k4, k5⟩ := importRecord_ok (e := e) hq (p := p) (t := t) (by rw [hacc]; exact g1) (by rw [g2, hmag])
      (by rw [he]; exact hclear a p hap)
    have hl1 : ∀ b q, (b, q) ∈ l1 → s.profiles.get b = some q := fun b q hb => hl (b, q) (by simp [hb])
    have hne : ∀ b q, (b, q) ∈ l1 → b ≠ a := by
      intro b q hb e1
      subst e1
      have h1 := hl1 b q hb
      rw [hap] at h1
      injection h1 with h1
      subst h1
      have := (List.nodup_append.1 hd).2.2 (b, p) hb (b, p) (by simp)
      exact this rfl
    have hu : Holds T (l1 ++ [(a, p)]) u := by
      refine ⟨fun b q => ?_, fun k b => ?_, fun c b => ?_⟩
      · rw [k3, KV.get_set]
        split
        · next e1 =>
          subst e1
          constructor
          · intro e2; injection e2 with e2; subst e2; simp
          · intro hm
            rcases List.mem_append.1 hm with hm | hm
            · exact absurd rfl (hne _ _ hm)
            · simp only [List.mem_singleton, Prod.mk.injEq] at hm; rw [hm.2]
        · next e1 =>
          rw [h.profiles]
          simp [e1]
      · rw [k5, he]
        by_cases h0 : T.trim p.nickname = []
        · rw [if_pos h0, h.aliases]
          constructor
          · rintro ⟨q, h1, h2⟩; exact ⟨q, by simp [h1], h2⟩
          · rintro ⟨q, h1, h2, h3⟩
            rcases List.mem_append.1 h1 with h1 | h1
            · exact ⟨q, h1, h2, h3⟩
            · simp only [List.mem_singleton, Prod.mk.injEq] at h1
              rw [h1.2] at h2; exact absurd h0 h2
        · rw [if_neg h0, KV.get_set]
          split
          · next e1 =>
            subst e1
            constructor
            · intro e2; injection e2 with e2; subst e2
              exact ⟨p, by simp, h0, rfl⟩
            · rintro ⟨q, h1, h2, h3⟩
              rcases List.mem_append.1 h1 with h1 | h1
              · exact absurd (hnick b a q p (hl1 b q h1) hap h2 h3) (hne _ _ h1)
              · simp only [List.mem_singleton, Prod.mk.injEq] at h1; rw [h1.1]
          · next e1 =>
            rw [h.aliases]
            constructor
            · rintro ⟨q, h1, h2⟩; exact ⟨q, by simp [h1], h2⟩
            · rintro ⟨q, h1, h2, h3⟩
              rcases List.mem_append.1 h1 with h1 | h1
              · exact ⟨q, h1, h2, h3⟩
              · simp only [List.mem_singleton, Prod.mk.injEq] at h1
                rw [h1.2] at h3; exact absurd h3.symm e1
      · rw [k4, KV.get_set]
        split
        · next e1 =>
          subst e1
          constructor
          · intro e2; injection e2 with e2; subst e2
            exact ⟨p, by simp, rfl⟩
          · rintro ⟨q, h1, h3⟩
            rcases List.mem_append.1 h1 with h1 | h1
            · exact absurd (hcard b a q p (hl1 b q h1) hap h3) (hne _ _ h1)
            · simp only [List.mem_singleton, Prod.mk.injEq] at h1; rw [h1.1]
        · next e1 =>
          rw [h.cards]
          constructor
          · rintro ⟨q, h1, h2⟩; exact ⟨q, by simp [h1], h2⟩
          · rintro ⟨q, h1, h3⟩
            rcases List.mem_append.1 h1 with h1 | h1
            · exact ⟨q, h1, h3⟩
            · simp only [List.mem_singleton, Prod.mk.injEq] at h1
              rw [h1.2] at h3; exact absurd h3.symm e1
    obtain ⟨v, m1, m2, m3⟩ := importRecords_go hq he hnick hcard hclear hcards l (l1 ++ [(a, p)]) u
      (by simpa using hl) (by simpa using hd) (k2.accounts.trans hacc) ((congrArg (·.cardMagic) k2.params).trans hmag) hu
    refine ⟨v, ?_, k2.trans m2, by simpa using m3⟩
    rw [List.map_cons, M.forEach_cons, M.bind_ok k1]
    exact m1

/-- **C56.** A chain that starts from the exported profiles of another one — with the same accounts and card magic, at any time —
has the same profiles, card numbers included; its nickname index holds the nicknames of the profiles and nothing else, its card
index the card numbers and nothing else. -/
theorem C56_export_import {T : TextOps} (hT : TextOk T) {s : State} (hs : TextReachable T s) {e : Env} (he : e.text = T)
    {quiet : Addr → RefCall} (hq : ∀ a, (quiet a).1 = .ok ()) {iterate : RefCall} (hi : iterate.1 = .ok ()) {t : State}
    (hp : t.profiles = KV.empty) (ha : t.aliases = KV.empty) (hc : t.cards = KV.empty)
    (hacc : t.accounts = s.accounts) (hmag : t.params.cardMagic = s.params.cardMagic) :
    ∃ u, importRecords e quiet iterate (exportRecords s) t = (.ok (), u) ∧ u.profiles = s.profiles ∧
      u.accounts = s.accounts ∧ u.bank = t.bank ∧ u.params = t.params ∧
      (∀ k a, u.aliases.get k = some a ↔ ∃ p, s.profiles.get a = some p ∧ T.trim p.nickname ≠ [] ∧ T.lower (T.trim p.nickname) = k) ∧
      (∀ c a, byCard u c = some a ↔ ∃ p, s.profiles.get a = some p ∧ p.cardNumber = c) := by
  have hr := hs.reachable
  obtain ⟨u, h1, h2, h3⟩ := importRecords_go (e := e) (quiet := quiet) hq (s := s) (T := T) he
    (fun a b p q h1 h2 h3 h4 => C39_unique hT hr h1 h2 h3 h4) (C40_cards hT hr).1 hs.clear (hr.ids hT).cards
    s.profiles.entries [] t (fun x hx => KV.mem_entries.1 (by simpa using hx))
    (by simpa using entries_nodup s.profiles) hacc hmag
    ⟨by simp [hp], by simp [ha], by simp [hc]⟩
  have hprof : u.profiles = s.profiles := by
    apply KV.ext
    intro a
    apply Option.ext
    intro p
    rw [h3.profiles]
    simp only [List.nil_append]
    exact KV.mem_entries
  have hrun : importRecords e quiet iterate (exportRecords s) t =
      (.ok (), { u with sched := Schedule.execReqs u.sched (iterate.2.filter foreignReq) }) := by
    unfold importRecords exportRecords
    rw [M.bind_ok h1]
    unfold onReferral
    rw [hi]
  refine ⟨_, hrun, hprof, h2.accounts.trans hacc, h2.bank, h2.params, fun k a => ?_, fun c a => ?_⟩
  · show u.aliases.get k = some a ↔ _
    rw [h3.aliases]
    simp only [List.nil_append, KV.mem_entries]
  · show u.cards.get c = some a ↔ _
    rw [h3.cards]
    simp only [List.nil_append, KV.mem_entries]

/-- The invariants behind C39 and C40 hold again on the new chain. -/
theorem C56_identities {T : TextOps} (hT : TextOk T) {s : State} (hs : TextReachable T s) {e : Env} (he : e.text = T)
    {quiet : Addr → RefCall} (hq : ∀ a, (quiet a).1 = .ok ()) {iterate : RefCall} (hi : iterate.1 = .ok ()) {t : State}
    (hp : t.profiles = KV.empty) (ha : t.aliases = KV.empty) (hc : t.cards = KV.empty)
    (hacc : t.accounts = s.accounts) (hmag : t.params.cardMagic = s.params.cardMagic) :
    let u := (importRecords e quiet iterate (exportRecords s) t).2
    Nicks T u ∧ Cards u := by
  obtain ⟨u, h1, h2, h3, -, h5, h6, h7⟩ := C56_export_import hT hs he hq hi hp ha hc hacc hmag
  rw [h1]
  refine ⟨fun a p hp hne => (h6 _ _).2 ⟨p, by rwa [h2] at hp, hne, rfl⟩, fun a p hp => ?_⟩
  rw [h2] at hp
  obtain ⟨n, g1, g2, -⟩ := (hs.reachable.ids hT).cards a p hp
  exact ⟨n, by rw [h3]; exact g1, by rw [h5, hmag]; exact g2, fun _ => (h7 _ _).2 ⟨p, hp, rfl⟩⟩

/-! ### Concrete cases -/

theorem runAll_text : ∀ (l : List Op) {s : State}, (∀ op ∈ l, op.Text ascii) → TextReachable ascii s → TextReachable ascii (Op.runAll exampleEnv l s)
  | [], _, _, h => h
  | op :: l, _, hl, h => runAll_text l (fun o ho => hl o (by simp [ho])) (.step exampleEnv rfl op (hl op (by simp)) h)

/-- Two profiles, one of them renamed from a nickname with a blank. -/
def renamed : State :=
  Op.runAll exampleEnv [.createAccount 5 7 5 (some { nickname := bobBlank }), .createAccount 5 6 5 none, .updateProfile 7 [.nickname carol]] exampleState

theorem renamed_reachable : TextReachable ascii renamed :=
  runAll_text _ (by intro op h; simp only [List.mem_cons, List.not_mem_nil, or_false] at h; rcases h with h | h | h <;> subst h <;> trivial)
    (.start exampleStart)

/-- The new chain: the accounts are there already. -/
def fresh : State := { exampleState with accounts := renamed.accounts, nextAcc := renamed.nextAcc, now := 5 }

def quietEx : Addr → RefCall := fun _ => (.ok (), [])

-- the profiles come back; the nickname that nobody holds any more (C39) is free again
example : (importRecords exampleEnv quietEx (.ok (), []) (exportRecords renamed) fresh).1 = .ok () ∧
    (importRecords exampleEnv quietEx (.ok (), []) (exportRecords renamed) fresh).2.profiles = renamed.profiles ∧
    renamed.profiles.keys = [6, 7] ∧
    byNickname exampleEnv renamed bob = some 7 ∧
    byNickname exampleEnv (importRecords exampleEnv quietEx (.ok (), []) (exportRecords renamed) fresh).2 bob = none ∧
    byNickname exampleEnv (importRecords exampleEnv quietEx (.ok (), []) (exportRecords renamed) fresh).2 carol = some 7 := by decide +kernel

/-- A profile whose account is missing stops the import with a panic, although the code means to create the account then
(keeper/genesis.go:54-57): the account was asked for its number before (line 39). -/
theorem C56_missing_account (e : Env) (quiet : Addr → RefCall) (a : Addr) (p : Profile) (t : State) (h : t.accounts.get a = none) :
    (importRecord e quiet a p t).1 = .panic := by
  unfold importRecord
  rw [M.bind_ok (M.get_apply t), h]
  rfl

end Verif.Profile
