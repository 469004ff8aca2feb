import Verif.Profile.Model
import Verif.Bank.Lemmas

namespace Verif.Profile
open Verif.Util Verif.Bank
open Verif.Schedule (Pending)

/-! ### Computations that leave the module's stores alone -/

/-- Everything but the bank store and other hooks' tasks is unchanged. -/
structure Same (s t : State) : Prop where
  profiles : t.profiles = s.profiles
  aliases : t.aliases = s.aliases
  cards : t.cards = s.cards
  accounts : t.accounts = s.accounts
  nextAcc : t.nextAcc = s.nextAcc
  params : t.params = s.params
  now : t.now = s.now
  pend : ∀ x, x.handler = refreshHook → Pending s.sched x → Pending t.sched x

theorem Same.refl (s : State) : Same s s := ⟨rfl, rfl, rfl, rfl, rfl, rfl, rfl, fun _ _ h => h⟩

theorem Same.trans {a b c : State} (h : Same a b) (g : Same b c) : Same a c :=
  ⟨g.profiles.trans h.profiles, g.aliases.trans h.aliases, g.cards.trans h.cards, g.accounts.trans h.accounts,
    g.nextAcc.trans h.nextAcc, g.params.trans h.params, g.now.trans h.now, fun x hx hp => g.pend x hx (h.pend x hx hp)⟩

/-- The computation leaves the module's stores alone, however it ends. -/
def Quiet {α : Type} (m : M State α) : Prop := ∀ s, Same s (m s).2

theorem Quiet.bind {α β : Type} {m : M State α} {f : α → M State β} (hm : Quiet m) (hf : ∀ a, Quiet (f a)) : Quiet (m >>= f) := by
  intro s
  have := hm s
  rw [M.bind_apply]
  rcases h : m s with ⟨r, s'⟩
  rw [h] at this
  cases r with
  | ok a => exact this.trans (hf a s')
  | err => exact this
  | panic => exact this

theorem Quiet.pure {α : Type} (a : α) : Quiet (Pure.pure a : M State α) := fun s => .refl s
theorem Quiet.err {α : Type} : Quiet (M.err : M State α) := fun s => .refl s
theorem Quiet.get : Quiet (M.get : M State State) := fun s => .refl s
theorem Quiet.errIf (c : Bool) : Quiet (M.errIf c : M State Unit) := fun s => by cases c <;> exact .refl s
theorem Quiet.panicIf (c : Bool) : Quiet (M.panicIf c : M State Unit) := fun s => by cases c <;> exact .refl s
theorem Quiet.orPanic {α : Type} (o : Option α) : Quiet (M.orPanic o : M State α) := fun s => by cases o <;> exact .refl s
theorem Quiet.when {c : Bool} {m : M State Unit} (h : Quiet m) : Quiet (Profile.when c m) := by
  unfold Profile.when; split
  · exact h
  · exact .pure _
theorem Quiet.onErr {α : Type} {m h : M State α} (hm : Quiet m) (hh : Quiet h) : Quiet (onErr m h) := by
  intro s
  have := hm s
  unfold Profile.onErr
  rcases hs : m s with ⟨r, t⟩
  rw [hs] at this
  cases r with
  | ok a => exact this
  | err => exact this.trans (hh t)
  | panic => exact this

theorem onBank_quiet {α : Type} (m : M Bank.State α) : Quiet (onBank m) := fun _ => ⟨rfl, rfl, rfl, rfl, rfl, rfl, rfl, fun _ _ h => h⟩

theorem foreign_spares {r : Schedule.Req} {x : Schedule.Task} (hx : x.handler = refreshHook) (h : hookOf r ≠ refreshHook) :
    r.Spares x := by
  cases r with
  | schedule => trivial
  | delete T k d => exact fun hh => h (hh.2.1.trans hx)
  | deleteAll T k => exact fun hh => h (hh.2.trans hx)

theorem foreignReq_iff {r : Schedule.Req} : foreignReq r = true ↔ hookOf r ≠ refreshHook ∧ hookOf r ≠ refreshImHook := by
  simp [foreignReq]

theorem execForeign_pend (s : Schedule.State) (rs : List Schedule.Req) (x : Schedule.Task) (hx : x.handler = refreshHook)
    (hp : Pending s x) : Pending (Schedule.execReqs s (rs.filter foreignReq)) x :=
  Schedule.execReqs_pending hp fun _ hr => foreign_spares hx (foreignReq_iff.1 (List.mem_filter.1 hr).2).1

theorem onReferral_quiet (c : RefCall) : Quiet (onReferral c) := fun s =>
  ⟨rfl, rfl, rfl, rfl, rfl, rfl, rfl, fun x hx hp => execForeign_pend s.sched c.2 x hx hp⟩

theorem onSched_quiet (r : Schedule.Req) (h : ∀ x, x.handler = refreshHook → r.Spares x) : Quiet (onSched r) := by
  intro s
  unfold onSched
  rcases hr : r.exec? s.sched with _ | t
  · exact .refl s
  · exact ⟨rfl, rfl, rfl, rfl, rfl, rfl, rfl, fun x hx hp => Schedule.exec?_pending hr hp (h x hx)⟩

theorem schedule_quiet (t : Int) (h : Nat) (d : List Nat) : Quiet (onSched (.schedule t h d)) := onSched_quiet _ fun _ _ => trivial

theorem deleteIm_quiet (t : Int) (d : List Nat) : Quiet (onSched (.delete t refreshImHook d)) :=
  onSched_quiet _ fun x hx hh => by
    have : refreshImHook = refreshHook := hh.2.1.trans hx
    exact absurd this (by decide)

theorem chargeFee_quiet (e : Env) (a : Addr) (x : Int) : Quiet (chargeFee e a x) := .bind (.panicIf _) fun _ => onBank_quiet _

theorem comeBack_quiet (e : Env) (a : Addr) : Quiet (comeBack e a) := by
  unfold comeBack
  split
  · exact .err
  · exact onReferral_quiet _
  · exact .pure _

theorem payTotal_quiet (e : Env) (a : Addr) (x y : Int) : Quiet (payTotal e a x y) :=
  .bind (.panicIf _) fun _ => .bind (.panicIf _) fun _ => .bind (.panicIf _) fun _ => onBank_quiet _

theorem paySplit_quiet (e : Env) (a : Addr) (x : Int) : Quiet (paySplit e a x) :=
  .bind (.panicIf _) fun _ => .bind (onBank_quiet _) fun _ => .bind (.panicIf _) fun _ => onBank_quiet _

theorem prolong_quiet (e : Env) (a : Addr) (p : Profile) : Quiet (prolong e a p) :=
  .bind (.errIf _) fun _ => .bind .get fun _ => .bind (.orPanic _) fun _ => .bind (.orPanic _) fun _ => .bind (.panicIf _) fun _ =>
    .bind (paySplit_quiet _ _ _) fun _ => .bind (deleteIm_quiet _ _) fun _ => .bind (schedule_quiet _ _ _) fun _ => .pure _

theorem tellReferral_quiet (e : Env) (a : Addr) (o : Option Profile) (p : Profile) : Quiet (tellReferral e a o p) := by
  refine .bind .get fun s => ?_
  split
  · exact onReferral_quiet _
  · exact .pure _

/-! ### Invariants -/

/-- What is assumed of the text functions (true of Go's `strings`): trimming is idempotent and commutes with lower-casing, no
text is lower-cased away. -/
structure TextOk (t : TextOps) : Prop where
  trim_trim : ∀ x, t.trim (t.trim x) = t.trim x
  lower_trim : ∀ x, t.lower (t.trim x) = t.trim (t.lower x)
  lower_nil : ∀ x, t.lower x = [] ↔ x = []

/-- The trimmed nicknames of all profiles are indexed. -/
def Nicks (t : TextOps) (s : State) : Prop :=
  ∀ a p, s.profiles.get a = some p → t.trim p.nickname ≠ [] → s.aliases.get (t.lower (t.trim p.nickname)) = some a

/-- Account numbers are handed out one by one. -/
structure Accs (s : State) : Prop where
  lt : ∀ a n, s.accounts.get a = some n → n < s.nextAcc
  inj : ∀ a b n, s.accounts.get a = some n → s.accounts.get b = some n → a = b

/-- Card numbers come from account numbers and are indexed. -/
def Cards (s : State) : Prop :=
  ∀ a p, s.profiles.get a = some p → ∃ n, s.accounts.get a = some n ∧ p.cardNumber = n ^^^ s.params.cardMagic ∧
    (p.cardNumber ≠ 0 → s.cards.get p.cardNumber = some a)

structure Ids (t : TextOps) (s : State) : Prop where
  nicks : Nicks t s
  accs : Accs s
  cards : Cards s

/-- A renewal task is pending at the end of every running subscription. -/
def Renew (s : State) : Prop :=
  ∀ a p u, s.profiles.get a = some p → p.activeUntil = some u → s.now < u →
    ∃ x, Pending s.sched x ∧ x.time = u ∧ x.handler = refreshHook ∧ x.data = [a]

theorem Same.ids {t : TextOps} {s s' : State} (h : Same s s') (hi : Ids t s) : Ids t s' := by
  obtain ⟨h1, ⟨h2, h3⟩, h4⟩ := hi
  refine ⟨?_, ⟨?_, ?_⟩, ?_⟩
  · intro a p; rw [h.profiles, h.aliases]; exact h1 a p
  · intro a n; rw [h.accounts, h.nextAcc]; exact h2 a n
  · intro a b n; rw [h.accounts]; exact h3 a b n
  · intro a p; rw [h.profiles, h.accounts, h.params, h.cards]; exact h4 a p

theorem Same.renew {s s' : State} (h : Same s s') (hr : Renew s) : Renew s' := by
  intro a p u hp hu hn
  rw [h.profiles] at hp
  rw [h.now] at hn
  obtain ⟨x, h1, h2, h3, h4⟩ := hr a p u hp hu hn
  exact ⟨x, h.pend x h3 h1, h2, h3, h4⟩

/-! ### `newAccount` -/

theorem newAccount_ids {t : TextOps} {s : State} {a : Addr} (h : Ids t s) (ha : s.accounts.has a = false) :
    Ids t (newAccount a s).2 := by
  obtain ⟨h1, ⟨h2, h3⟩, h4⟩ := h
  have hn : s.accounts.get a = none := by
    unfold KV.has at ha
    rcases hh : s.accounts.get a with _ | n
    · rfl
    · rw [hh] at ha; cases ha
  refine ⟨h1, ⟨?_, ?_⟩, ?_⟩
  · intro b n hb
    simp only [newAccount, KV.get_set] at hb ⊢
    split at hb
    · injection hb with hb; omega
    · have := h2 b n hb; omega
  · intro b c n hb hc
    simp only [newAccount, KV.get_set] at hb hc
    split at hb <;> split at hc
    · next h5 h6 => rw [h5, h6]
    · next h5 h6 =>
      have := h2 c n hc; injection hb with hb; omega
    · next h5 h6 =>
      have := h2 b n hb; injection hc with hc; omega
    · exact h3 b c n hb hc
  · intro b p hp
    obtain ⟨n, g1, g2, g3⟩ := h4 b p hp
    refine ⟨n, ?_, g2, g3⟩
    simp only [newAccount, KV.get_set]
    rw [if_neg (by rintro rfl; rw [hn] at g1; cases g1)]
    exact g1

theorem newAccount_renew {s : State} {a : Addr} (h : Renew s) : Renew (newAccount a s).2 := h

theorem ensureAccount_has {s : State} {a : Addr} (h : s.accounts.has a = true) : ensureAccount a s = (.ok (), s) := by
  unfold ensureAccount
  rw [M.bind_ok (M.get_apply s), if_pos h]
  rfl

/-! ### `setProfile` -/

theorem has_of_get {K V : Type} [LinearOrder K] {m : KV K V} {k : K} {v : V} (h : m.get k = some v) : m.has k = true := by
  simp [KV.has, h]

theorem errIf_cases {σ β : Type} (c : Bool) (f : Unit → M σ β) (s : σ) :
    (M.errIf c >>= f) s = if c then (.err, s) else f () s := by cases c <;> rfl

/-- Saving a profile whose nickname and card number are those on record. -/
theorem setProfile_same (e : Env) (a : Addr) {s : State} {o p : Profile} (ho : s.profiles.get a = some o)
    (hn : p.nickname = o.nickname) (hc : p.cardNumber = o.cardNumber) (ha : s.accounts.has a = true) :
    setProfile e a p s = (.err, s) ∨ setProfile e a p s = tellReferral e a (some o) p { s with profiles := s.profiles.set a p } := by
  unfold setProfile
  rw [M.bind_ok (M.get_apply s), errIf_cases]
  split
  · exact Or.inl rfl
  right
  have h1 : updateAlias e a (s.profiles.get a) p.nickname s = (.ok (), s) := by
    rw [ho]; unfold updateAlias; dsimp only
    rw [if_neg (by simp [hn])]; rfl
  have h2 : updateCard a (s.profiles.get a) p.cardNumber s = (.ok p.cardNumber, s) := by
    rw [ho]; unfold updateCard; dsimp only
    split
    · rw [M.bind_ok (a := ()) (s' := s)]
      · rfl
      · simp [when, hc]
    · rw [hc]; rfl
  rw [M.bind_ok h1, M.bind_ok h2]
  have h3 : storeProfile a { p with cardNumber := p.cardNumber } s = (.ok (), { s with profiles := s.profiles.set a p }) := rfl
  rw [M.bind_ok h3, M.bind_ok (ensureAccount_has (by exact ha)), ho]

theorem store_same_ids {t : TextOps} {s : State} {a : Addr} {o p : Profile} (h : Ids t s) (ho : s.profiles.get a = some o)
    (hn : p.nickname = o.nickname) (hc : p.cardNumber = o.cardNumber) : Ids t { s with profiles := s.profiles.set a p } := by
  refine ⟨?_, ⟨h.accs.lt, h.accs.inj⟩, ?_⟩
  · intro b q hq hne
    simp only [KV.get_set] at hq
    split at hq
    · next hb => injection hq with hq; subst hq hb; rw [hn] at hne ⊢; exact h.nicks _ _ ho hne
    · exact h.nicks b q hq hne
  · intro b q hq
    simp only [KV.get_set] at hq
    split at hq
    · next hb => injection hq with hq; subst hq hb; rw [hc]; exact h.cards _ _ ho
    · exact h.cards b q hq

theorem setProfile_same_ids {t : TextOps} (e : Env) (a : Addr) {s : State} {o p : Profile} (h : Ids t s)
    (ho : s.profiles.get a = some o) (hn : p.nickname = o.nickname) (hc : p.cardNumber = o.cardNumber) :
    Ids t (setProfile e a p s).2 := by
  obtain ⟨n, hacc, -⟩ := h.cards a o ho
  rcases setProfile_same e a ho hn hc (has_of_get hacc) with h1 | h1
  · rw [h1]; exact h
  · rw [h1]; exact (tellReferral_quiet e a _ p _).ids (store_same_ids h ho hn hc)

/-! Whatever happens, saving a profile stores it or leaves the profiles alone. -/

/-- The profiles are unchanged. -/
structure Frame (s t : State) : Prop where
  profiles : t.profiles = s.profiles
  params : t.params = s.params
  now : t.now = s.now
  pend : ∀ x, x.handler = refreshHook → Pending s.sched x → Pending t.sched x

theorem Frame.refl (s : State) : Frame s s := ⟨rfl, rfl, rfl, fun _ _ h => h⟩
theorem Frame.trans {a b c : State} (h : Frame a b) (g : Frame b c) : Frame a c :=
  ⟨g.profiles.trans h.profiles, g.params.trans h.params, g.now.trans h.now, fun x hx hp => g.pend x hx (h.pend x hx hp)⟩
theorem Same.frame {s t : State} (h : Same s t) : Frame s t := ⟨h.profiles, h.params, h.now, h.pend⟩

theorem Frame.renew {s s' : State} (h : Frame s s') (hr : Renew s) : Renew s' := by
  intro a p u hp hu hn
  rw [h.profiles] at hp
  rw [h.now] at hn
  obtain ⟨x, h1, h2, h3, h4⟩ := hr a p u hp hu hn
  exact ⟨x, h.pend x h3 h1, h2, h3, h4⟩

def Framed {α : Type} (m : M State α) : Prop := ∀ s, Frame s (m s).2

theorem Quiet.framed {α : Type} {m : M State α} (h : Quiet m) : Framed m := fun s => (h s).frame

theorem Framed.bind {α β : Type} {m : M State α} {f : α → M State β} (hm : Framed m) (hf : ∀ a, Framed (f a)) : Framed (m >>= f) := by
  intro s
  have := hm s
  rw [M.bind_apply]
  rcases h : m s with ⟨r, s'⟩
  rw [h] at this
  cases r with
  | ok a => exact this.trans (hf a s')
  | err => exact this
  | panic => exact this

theorem Framed.when {c : Bool} {m : M State Unit} (h : Framed m) : Framed (Profile.when c m) := by
  unfold Profile.when; split
  · exact h
  · exact Quiet.framed (.pure _)

theorem modify_framed {f : State → State} (h : ∀ s, Frame s (f s)) : Framed (M.modify f) := h

theorem setAlias_framed (e : Env) (n : Text) (a : Addr) : Framed (setAlias e n a) := modify_framed fun _ => ⟨rfl, rfl, rfl, fun _ _ h => h⟩
theorem removeAlias_framed (e : Env) (n : Text) : Framed (removeAlias e n) := modify_framed fun _ => ⟨rfl, rfl, rfl, fun _ _ h => h⟩
theorem setCard_framed (c : Nat) (a : Addr) : Framed (setCard c a) := modify_framed fun _ => ⟨rfl, rfl, rfl, fun _ _ h => h⟩
theorem removeCard_framed (c : Nat) : Framed (removeCard c) := modify_framed fun _ => ⟨rfl, rfl, rfl, fun _ _ h => h⟩

theorem updateAlias_framed (e : Env) (a : Addr) (o : Option Profile) (raw : Text) : Framed (updateAlias e a o raw) := by
  unfold updateAlias
  dsimp only
  split
  · split
    · exact .bind (.when (removeAlias_framed _ _)) fun _ => .when (.bind (chargeFee_quiet _ _ _).framed fun _ => setAlias_framed _ _ _)
    · exact Quiet.framed (.pure _)
  · exact .when (setAlias_framed _ _ _)

theorem updateCard_framed (a : Addr) (o : Option Profile) (c : Nat) : Framed (updateCard a o c) := by
  unfold updateCard
  split
  · split
    · exact .bind (.when (.bind (.when (removeCard_framed _)) fun _ => setCard_framed _ _)) fun _ => Quiet.framed (.pure _)
    · exact Quiet.framed (.pure _)
  · exact .bind (.when (setCard_framed _ _)) fun _ => Quiet.framed (.pure _)

theorem newAccount_framed (a : Addr) : Framed (newAccount a) := fun _ => ⟨rfl, rfl, rfl, fun _ _ h => h⟩

theorem ensureAccount_framed (a : Addr) : Framed (ensureAccount a) := by
  refine .bind (Quiet.framed .get) fun s => ?_
  split
  · exact Quiet.framed (.pure _)
  · exact .bind (newAccount_framed a) fun _ => Quiet.framed (.pure _)

/-- The profile `p` (with some card number) is stored, or nothing is. -/
theorem setProfile_stores (e : Env) (a : Addr) (p : Profile) (s : State) :
    Frame s (setProfile e a p s).2 ∨ ∃ c, Frame { s with profiles := s.profiles.set a { p with cardNumber := c } } (setProfile e a p s).2 := by
  unfold setProfile
  rw [M.bind_ok (M.get_apply s), errIf_cases]
  split
  · exact Or.inl (.refl s)
  rcases h1 : updateAlias e a (s.profiles.get a) p.nickname s with ⟨r1, s1⟩
  have f1 := updateAlias_framed e a (s.profiles.get a) p.nickname s
  rw [h1] at f1
  cases r1 with
  | err => left; rw [M.bind_err h1]; exact f1
  | panic => left; rw [M.bind_panic h1]; exact f1
  | ok u1 =>
  rw [M.bind_ok h1]
  rcases h2 : updateCard a (s.profiles.get a) p.cardNumber s1 with ⟨r2, s2⟩
  have f2 := updateCard_framed a (s.profiles.get a) p.cardNumber s1
  rw [h2] at f2
  cases r2 with
  | err => left; rw [M.bind_err h2]; exact f1.trans f2
  | panic => left; rw [M.bind_panic h2]; exact f1.trans f2
  | ok c =>
  rw [M.bind_ok h2]
  right
  refine ⟨c, ?_⟩
  have f := f1.trans f2
  have h3 : storeProfile a { p with cardNumber := c } s2 =
    (.ok (), { s2 with profiles := s2.profiles.set a { p with cardNumber := c } }) := rfl
  rw [M.bind_ok h3]
  have g : Frame { s with profiles := s.profiles.set a { p with cardNumber := c } }
      { s2 with profiles := s2.profiles.set a { p with cardNumber := c } } :=
    ⟨by rw [f.profiles], f.params, f.now, f.pend⟩
  exact g.trans (Framed.bind (ensureAccount_framed a) (fun _ => (tellReferral_quiet e a _ p).framed) _)

theorem setProfile_renew (e : Env) (a : Addr) {p : Profile} {s : State} (h : Renew s)
    (hp : ∀ u, p.activeUntil = some u → s.now < u → ∃ x, Pending s.sched x ∧ x.time = u ∧ x.handler = refreshHook ∧ x.data = [a]) :
    Renew (setProfile e a p s).2 := by
  rcases setProfile_stores e a p s with f | ⟨c, f⟩
  · exact f.renew h
  · refine f.renew ?_
    intro b q u hq hu hn
    simp only [KV.get_set] at hq
    split at hq
    · next hb => injection hq with hq; subst hq hb; exact hp u hu hn
    · exact h b q u hq hu hn

end Verif.Profile
