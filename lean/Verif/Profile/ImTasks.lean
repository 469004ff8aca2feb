import Verif.Profile.Tariff

/-! The tasks that end extra messenger storage, for C59 and C61. -/
namespace Verif.Profile
open Verif.Util Verif.Bank
open Verif.Schedule (Pending)

/-! ### Messenger tasks in the schedule -/

/-- The data of the messenger tasks at time `T`. -/
def ims (s : Schedule.State) (T : Int) : List (List Nat) :=
  (((s.store.get T).getD []).filter (fun x => x.handler == refreshImHook)).map (·.data)

theorem mem_ims {s : Schedule.State} (hi : Schedule.Inv s) {T : Int} {d : List Nat} :
    d ∈ ims s T ↔ ∃ x, Pending s x ∧ x.time = T ∧ x.handler = refreshImHook ∧ x.data = d := by
  unfold ims
  rcases hg : s.store.get T with _ | l
  · simp only [Option.getD_none, List.filter_nil, List.map_nil, List.not_mem_nil, false_iff]
    rintro ⟨x, ⟨l, hl, -⟩, rfl, -⟩
    rw [hg] at hl; cases hl
  · simp only [Option.getD_some, List.mem_map, List.mem_filter, beq_iff_eq]
    constructor
    · rintro ⟨x, ⟨hx, hh⟩, rfl⟩
      have ht := ((hi.bucket T l hg).2.2.2 x hx).1
      exact ⟨x, ⟨l, by rw [ht]; exact hg, hx⟩, ht, hh, rfl⟩
    · rintro ⟨x, ⟨l', hl', hx⟩, rfl, hh, rfl⟩
      rw [hg] at hl'; injection hl' with hl'; subst hl'
      exact ⟨x, ⟨hx, hh⟩, rfl⟩

theorem ims_schedule {s t : Schedule.State} {T : Int} {h : Nat} {d : List Nat} (hs : Schedule.schedule? s T h d = some t) (T' : Int) :
    ims t T' = ims s T' ++ (if T' = T ∧ h = refreshImHook then [d] else []) := by
  obtain ⟨-, -, hst⟩ := Schedule.schedule?_spec hs
  unfold ims
  rw [hst, KV.get_set]
  by_cases hT : T' = T
  · subst hT
    rw [if_pos rfl, Option.getD_some, List.filter_append, List.map_append]
    congr 1
    by_cases hh : h = refreshImHook
    · simp [hh]
    · simp [hh]
  · rw [if_neg hT, if_neg (fun hc => hT hc.1), List.append_nil]

theorem ims_delete {s t : Schedule.State} {T : Int} {p : Schedule.Task → Bool} (hs : Schedule.delete? s T p = some t) (T' : Int) :
    ims t T' = if T' = T then
      ((((s.store.get T).getD []).filter (fun x => !p x)).filter (fun x => x.handler == refreshImHook)).map (·.data) else ims s T' := by
  unfold ims
  rw [Schedule.delete?_get hs]
  by_cases hT : T' = T
  · rw [if_pos hT, if_pos hT]
    rcases hg : s.store.get T with _ | l
    · simp
    · simp only [Option.getD_some]
      by_cases he : (l.filter (fun t => !p t)).isEmpty = true
      · rw [if_pos he, List.isEmpty_iff.1 he]; simp
      · rw [if_neg he, Option.getD_some]
  · rw [if_neg hT, if_neg hT]

theorem ims_foreign {s t : Schedule.State} {r : Schedule.Req} (h : r.exec? s = some t) (hr : hookOf r ≠ refreshImHook) (T : Int) :
    ims t T = ims s T := by
  have key : ∀ (l : List Schedule.Task) (p : Schedule.Task → Bool), (∀ x ∈ l, x.handler = refreshImHook → p x = false) →
      (l.filter (fun x => !p x)).filter (fun x => x.handler == refreshImHook) = l.filter (fun x => x.handler == refreshImHook) := by
    intro l p hp
    rw [List.filter_filter]
    apply List.filter_congr
    intro x hx
    by_cases hh : x.handler = refreshImHook
    · simp [hh, hp x hx hh]
    · simp [hh]
  cases r with
  | schedule T' k d =>
    rw [ims_schedule h, if_neg (fun hc => hr hc.2), List.append_nil]
  | delete T' k d =>
    rw [ims_delete h]
    split
    · next hT =>
      subst hT
      rw [key]
      · rfl
      · intro x _ hx
        have : x.handler ≠ k := fun hc => hr (hc.symm.trans hx)
        simp [this]
    · rfl
  | deleteAll T' k =>
    rw [ims_delete h]
    split
    · next hT =>
      subst hT
      rw [key]
      · rfl
      · intro x _ hx
        have : x.handler ≠ k := fun hc => hr (hc.symm.trans hx)
        simp [this]
    · rfl

theorem ims_execReqs (rs : List Schedule.Req) (s : Schedule.State) (T : Int) :
    ims (Schedule.execReqs s (rs.filter foreignReq)) T = ims s T := by
  generalize hl : rs.filter foreignReq = l
  have hall : ∀ r ∈ l, hookOf r ≠ refreshImHook := fun r hr => (foreignReq_iff.1 (List.mem_filter.1 (hl ▸ hr)).2).2
  clear hl
  induction l generalizing s with
  | nil => rfl
  | cons r l ih =>
    unfold Schedule.execReqs
    rcases h : r.exec? s with _ | s'
    · rfl
    · exact (ih s' (fun r' hr' => hall r' (by simp [hr']))).trans (ims_foreign h (hall r (by simp)) T)

/-! ### Computations without effect on them -/

/-- The messenger tasks, the time and the parameters are unchanged. -/
structure ImFrame (s t : State) : Prop where
  ims : ∀ T, ims t.sched T = ims s.sched T
  now : t.now = s.now
  params : t.params = s.params
  inv : Schedule.Inv s.sched → Schedule.Inv t.sched

theorem ImFrame.refl (s : State) : ImFrame s s := ⟨fun _ => rfl, rfl, rfl, id⟩
theorem ImFrame.trans {a b c : State} (h : ImFrame a b) (g : ImFrame b c) : ImFrame a c :=
  ⟨fun T => (g.ims T).trans (h.ims T), g.now.trans h.now, g.params.trans h.params, g.inv ∘ h.inv⟩

def Calm {α : Type} (m : M State α) : Prop := ∀ s, ImFrame s (m s).2

theorem Calm.bind {α β : Type} {m : M State α} {f : α → M State β} (hm : Calm m) (hf : ∀ a, Calm (f a)) : Calm (m >>= f) := by
  intro s
  have := hm s
  rw [M.bind_apply]
  rcases h : m s with ⟨r, s'⟩
  rw [h] at this
  cases r with
  | ok a => exact this.trans (hf a s')
  | err => exact this
  | panic => exact this

theorem Calm.pure {α : Type} (a : α) : Calm (Pure.pure a : M State α) := fun s => .refl s
theorem Calm.err {α : Type} : Calm (M.err : M State α) := fun s => .refl s
theorem Calm.get : Calm (M.get : M State State) := fun s => .refl s
theorem Calm.errIf (c : Bool) : Calm (M.errIf c : M State Unit) := fun s => by cases c <;> exact .refl s
theorem Calm.panicIf (c : Bool) : Calm (M.panicIf c : M State Unit) := fun s => by cases c <;> exact .refl s
theorem Calm.orPanic {α : Type} (o : Option α) : Calm (M.orPanic o : M State α) := fun s => by cases o <;> exact .refl s
theorem Calm.when {c : Bool} {m : M State Unit} (h : Calm m) : Calm (Profile.when c m) := by
  unfold Profile.when; split
  · exact h
  · exact .pure _
theorem Calm.modify {f : State → State} (h : ∀ s, ImFrame s (f s)) : Calm (M.modify f) := h

theorem onBank_calm {α : Type} (m : M Bank.State α) : Calm (onBank m) := fun _ => ⟨fun _ => rfl, rfl, rfl, id⟩
theorem onReferral_calm (c : RefCall) : Calm (onReferral c) := fun s =>
  ⟨fun T => ims_execReqs _ _ T, rfl, rfl, fun h => Schedule.execReqs_inv _ h⟩
theorem onSched_calm (r : Schedule.Req) (hr : hookOf r ≠ refreshImHook) : Calm (onSched r) := by
  intro s
  unfold onSched
  rcases h : r.exec? s.sched with _ | t
  · exact .refl s
  · exact ⟨fun T => ims_foreign h hr T, rfl, rfl, fun hi => Schedule.exec?_inv h hi⟩
theorem chargeFee_calm (e : Env) (a : Addr) (x : Int) : Calm (chargeFee e a x) := .bind (.panicIf _) fun _ => onBank_calm _
theorem comeBack_calm (e : Env) (a : Addr) : Calm (comeBack e a) := by
  unfold comeBack
  split
  · exact .err
  · exact onReferral_calm _
  · exact .pure _
theorem payTotal_calm (e : Env) (a : Addr) (x y : Int) : Calm (payTotal e a x y) :=
  .bind (.panicIf _) fun _ => .bind (.panicIf _) fun _ => .bind (.panicIf _) fun _ => onBank_calm _
theorem paySplit_calm (e : Env) (a : Addr) (x : Int) : Calm (paySplit e a x) :=
  .bind (.panicIf _) fun _ => .bind (onBank_calm _) fun _ => .bind (.panicIf _) fun _ => onBank_calm _
theorem setAlias_calm (e : Env) (n : Text) (a : Addr) : Calm (setAlias e n a) := .modify fun _ => ⟨fun _ => rfl, rfl, rfl, id⟩
theorem removeAlias_calm (e : Env) (n : Text) : Calm (removeAlias e n) := .modify fun _ => ⟨fun _ => rfl, rfl, rfl, id⟩
theorem setCard_calm (c : Nat) (a : Addr) : Calm (setCard c a) := .modify fun _ => ⟨fun _ => rfl, rfl, rfl, id⟩
theorem removeCard_calm (c : Nat) : Calm (removeCard c) := .modify fun _ => ⟨fun _ => rfl, rfl, rfl, id⟩
theorem storeProfile_calm (a : Addr) (p : Profile) : Calm (storeProfile a p) := .modify fun _ => ⟨fun _ => rfl, rfl, rfl, id⟩
theorem newAccount_calm (a : Addr) : Calm (newAccount a) := fun _ => ⟨fun _ => rfl, rfl, rfl, id⟩

theorem updateAlias_calm (e : Env) (a : Addr) (o : Option Profile) (raw : Text) : Calm (updateAlias e a o raw) := by
  unfold updateAlias
  dsimp only
  split
  · split
    · exact .bind (.when (removeAlias_calm _ _)) fun _ => .when (.bind (chargeFee_calm _ _ _) fun _ => setAlias_calm _ _ _)
    · exact .pure _
  · exact .when (setAlias_calm _ _ _)

theorem updateCard_calm (a : Addr) (o : Option Profile) (c : Nat) : Calm (updateCard a o c) := by
  unfold updateCard
  split
  · split
    · exact .bind (.when (.bind (.when (removeCard_calm _)) fun _ => setCard_calm _ _)) fun _ => .pure _
    · exact .pure _
  · exact .bind (.when (setCard_calm _ _)) fun _ => .pure _

theorem ensureAccount_calm (a : Addr) : Calm (ensureAccount a) := by
  refine .bind .get fun s => ?_
  split
  · exact .pure _
  · exact .bind (newAccount_calm a) fun _ => .pure _

theorem tellReferral_calm (e : Env) (a : Addr) (o : Option Profile) (p : Profile) : Calm (tellReferral e a o p) := by
  refine .bind .get fun s => ?_
  split
  · exact onReferral_calm _
  · exact .pure _

theorem setProfile_calm (e : Env) (a : Addr) (p : Profile) : Calm (setProfile e a p) :=
  .bind .get fun _ => .bind (.errIf _) fun _ => .bind (updateAlias_calm _ _ _ _) fun _ => .bind (updateCard_calm _ _ _) fun _ =>
    .bind (storeProfile_calm _ _) fun _ => .bind (ensureAccount_calm _) fun _ => tellReferral_calm _ _ _ _

/-! ### The messenger part of profiles -/

/-- What a profile says about extra messenger storage: amount, end, automatic payment. -/
def Profile.im (p : Profile) : Nat × Option Int × Bool := (p.imLimitExtra, p.extraImUntil, p.autoPayImExtra)

theorem im_eq {p q : Profile} (h1 : p.imLimitExtra = q.imLimitExtra) (h2 : p.extraImUntil = q.extraImUntil)
    (h3 : p.autoPayImExtra = q.autoPayImExtra) : p.im = q.im := by
  unfold Profile.im; rw [h1, h2, h3]

def imOf (s : State) (a : Addr) : Option (Nat × Option Int × Bool) := (s.profiles.get a).map Profile.im

/-- Additionally the messenger part of all profiles is unchanged. -/
structure ImSame (s t : State) : Prop extends ImFrame s t where
  im : ∀ b, imOf t b = imOf s b

theorem ImSame.refl (s : State) : ImSame s s := ⟨.refl s, fun _ => rfl⟩
theorem ImSame.trans {a b c : State} (h : ImSame a b) (g : ImSame b c) : ImSame a c :=
  ⟨h.toImFrame.trans g.toImFrame, fun x => (g.im x).trans (h.im x)⟩

theorem imOf_congr {s t : State} (h : t.profiles = s.profiles) (b : Addr) : imOf t b = imOf s b := by
  unfold imOf; rw [h]

theorem ImFrame.same {s t : State} (h : ImFrame s t) (hp : t.profiles = s.profiles) : ImSame s t := ⟨h, imOf_congr hp⟩

theorem setProfile_same_im (e : Env) {a : Addr} {p o : Profile} {s : State} (ho : s.profiles.get a = some o) (hp : p.im = o.im) :
    ImSame s (setProfile e a p s).2 := by
  refine ⟨setProfile_calm e a p s, fun b => ?_⟩
  rcases setProfile_stores e a p s with f | ⟨c, f⟩
  · exact imOf_congr f.profiles b
  · rw [imOf_congr f.profiles]
    unfold imOf
    simp only [KV.get_set]
    split
    · next hb => rw [hb, ho]; simp only [Option.map_some]; rw [← hp]; rfl
    · rfl

/-- Started with the profile `o` of `a` on record, the computation changes nothing about messenger storage. -/
def KeepsI (a : Addr) (o : Profile) {α : Type} (m : M State α) : Prop := ∀ s, s.profiles.get a = some o → ImSame s (m s).2

theorem KeepsI.bind' {a : Addr} {o : Profile} {α β : Type} {m : M State α} {f : α → M State β} (hm : Quiet m) (hc : Calm m)
    (hf : ∀ x, (∃ s t, m s = (.ok x, t)) → KeepsI a o (f x)) : KeepsI a o (m >>= f) := by
  intro s hs
  have q := (hc s).same (hm s).profiles
  have qp := (hm s).profiles
  rw [M.bind_apply]
  rcases h : m s with ⟨r, s'⟩
  rw [h] at q qp
  cases r with
  | ok x => exact q.trans (hf x ⟨s, s', h⟩ s' (by rw [qp]; exact hs))
  | err => exact q
  | panic => exact q

theorem KeepsI.bind {a : Addr} {o : Profile} {α β : Type} {m : M State α} {f : α → M State β} (hm : Quiet m) (hc : Calm m)
    (hf : ∀ x, KeepsI a o (f x)) : KeepsI a o (m >>= f) := .bind' hm hc fun x _ => hf x

theorem KeepsI.set {a : Addr} {o p : Profile} (e : Env) (hp : p.im = o.im) : KeepsI a o (setProfile e a p) :=
  fun _ hs => setProfile_same_im e hs hp

theorem KeepsI.quiet {a : Addr} {o : Profile} {α : Type} {m : M State α} (h : Quiet m) (hc : Calm m) : KeepsI a o m :=
  fun s _ => (hc s).same (h s).profiles

/-- Never changes anything about messenger storage. -/
def PresI {α : Type} (m : M State α) : Prop := ∀ s, ImSame s (m s).2

theorem PresI.read {a : Addr} {α : Type} {f : State → Profile → M State α} (hf : ∀ s o, KeepsI a o (f s o)) :
    PresI (M.get >>= fun s => M.orPanic (s.profiles.get a) >>= f s) := by
  intro s
  rw [M.bind_ok (M.get_apply s)]
  rcases h : s.profiles.get a with _ | o
  · exact .refl s
  · rw [M.bind_ok (M.orPanic_some o s)]
    exact hf s o s h

theorem resetLimits_im (p : Params) (o : Profile) : (resetLimits p o).im = o.im := by
  have h : (resetLimits p o).imLimitExtra = o.imLimitExtra ∧ (resetLimits p o).extraImUntil = o.extraImUntil ∧
      (resetLimits p o).autoPayImExtra = o.autoPayImExtra := by
    unfold resetLimits
    dsimp only
    exact ⟨Eq.refl _, Eq.refl _, Eq.refl _⟩
  unfold Profile.im
  rw [h.1, h.2.1, h.2.2]

theorem renewed_im {e : Env} {p : Params} {now : Int} {o q : Profile} {b : Nat} {auto : Bool} (h : renewed? e p now o b auto = some q) :
    q.im = o.im := by
  unfold renewed? at h
  dsimp only at h
  generalize hp1 : (if o.isActive now = true ∧ b ≠ o.storageLimit then { o with storageLimit := b } else o) = o1 at h
  have h1 : o1.im = o.im := by rw [← hp1]; split <;> rfl
  split at h
  · injection h with h; subst h
    rw [resetLimits_im]; exact h1
  · split at h
    · cases h
    · injection h with h; subst h
      split
      · rw [resetLimits_im]; exact h1
      · exact h1

theorem payTariff_presI (e : Env) (a : Addr) (g : Nat) (auto : Bool) : PresI (payTariff e a g auto) := by
  refine .read fun s o => .bind (.errIf _) (.errIf _) fun _ => .bind (.orPanic _) (.orPanic _) fun q =>
    .bind (comeBack_quiet _ _) (comeBack_calm _ _) fun _ => .bind (payTotal_quiet _ _ _ _) (payTotal_calm _ _ _ _) fun _ =>
    .bind' (.orPanic _) (.orPanic _) fun p hp => ?_
  obtain ⟨s1, t1, hp⟩ := hp
  obtain ⟨hp, -⟩ := M.orPanic_ok_iff.1 hp
  exact .bind (schedule_quiet _ _ _) (onSched_calm _ (by decide : refreshHook ≠ refreshImHook)) fun _ => .set e (renewed_im hp)

theorem monthly_presI (e : Env) (a : Addr) : PresI (monthly e a) := by
  refine .read fun s o => ?_
  split
  · exact .set e (resetLimits_im _ _)
  · split
    · intro w _
      have h := payTariff_presI e a 0 true w
      unfold onErr
      rcases hh : payTariff e a 0 true w with ⟨r, w'⟩
      rw [hh] at h
      have q := (onReferral_calm (e.setActive a false) w').same (onReferral_quiet (e.setActive a false) w').profiles
      cases r with
      | ok x => exact h
      | err => exact h.trans q
      | panic => exact h
    · exact .quiet (onReferral_quiet _) (onReferral_calm _)

theorem buyStorage_presI (e : Env) (a : Addr) (g : Nat) : PresI (buyStorage e a g) := by
  intro s
  unfold buyStorage
  rw [errIf_cases]
  split
  · exact .refl s
  · refine PresI.read (a := a) (fun s o => ?_) s
    exact .bind (.errIf _) (.errIf _) fun _ => .bind (.orPanic _) (.orPanic _) fun _ => .bind (.orPanic _) (.orPanic _) fun _ =>
      .bind (.panicIf _) (.panicIf _) fun _ => .bind (paySplit_quiet _ _ _) (paySplit_calm _ _ _) fun _ => .set e (im_eq (Eq.refl _) (Eq.refl _) (Eq.refl _))

theorem buyVpn_presI (e : Env) (a : Addr) (g : Nat) : PresI (buyVpn e a g) := by
  intro s
  unfold buyVpn
  rw [errIf_cases]
  split
  · exact .refl s
  · refine PresI.read (a := a) (fun s o => ?_) s
    exact .bind (.errIf _) (.errIf _) fun _ => .bind (.orPanic _) (.orPanic _) fun _ => .bind (.orPanic _) (.orPanic _) fun _ =>
      .bind (paySplit_quiet _ _ _) (paySplit_calm _ _ _) fun _ => .set e (im_eq (Eq.refl _) (Eq.refl _) (Eq.refl _))

theorem giveStorageUp_presI (e : Env) (a : Addr) (g : Nat) : PresI (giveStorageUp e a g) := by
  intro s
  unfold giveStorageUp
  rw [errIf_cases]
  split
  · exact .refl s
  · refine PresI.read (a := a) (fun s o => ?_) s
    exact .bind (.errIf _) (.errIf _) fun _ => .bind (.errIf _) (.errIf _) fun _ => .set e (im_eq (Eq.refl _) (Eq.refl _) (Eq.refl _))

theorem store_same_im {s : State} {a : Addr} {o p : Profile} (ho : s.profiles.get a = some o) (hp : p.im = o.im) :
    ImSame s { s with profiles := s.profiles.set a p } := by
  refine ⟨⟨fun _ => rfl, rfl, rfl, id⟩, fun b => ?_⟩
  unfold imOf
  simp only [KV.get_set]
  split
  · next hb => rw [hb, ho]; simp only [Option.map_some]; rw [hp]
  · rfl

theorem setStorageCurrent_presI (x a : Addr) (v : Nat) : PresI (setStorageCurrent x a v) := by
  intro s
  unfold setStorageCurrent
  rw [M.bind_ok (M.get_apply s), errIf_cases]
  split
  · exact .refl s
  · rcases hp : s.profiles.get a with _ | o
    · exact .refl s
    · exact store_same_im hp (im_eq (Eq.refl _) (Eq.refl _) (Eq.refl _))

theorem setVpnCurrent_presI (x a : Addr) (v : Nat) : PresI (setVpnCurrent x a v) := by
  intro s
  unfold setVpnCurrent
  rw [M.bind_ok (M.get_apply s), errIf_cases]
  split
  · exact .refl s
  · rcases hp : s.profiles.get a with _ | o
    · exact .refl s
    · exact store_same_im hp (im_eq (Eq.refl _) (Eq.refl _) (Eq.refl _))

theorem addAccounts_im (l : List Addr) (s : State) : ImSame s (addAccounts l s) := by
  induction l generalizing s with
  | nil => exact .refl s
  | cons a l ih =>
    unfold addAccounts
    refine ImSame.trans ?_ (ih _)
    split
    · exact .refl s
    · exact (newAccount_calm a s).same rfl

theorem foreign_im (f : Foreign) (s : State) : ImSame s (f.run s) := by
  have q : ImSame s { s with bank := f.bank s.bank, sched := Schedule.execReqs s.sched (f.reqs.filter foreignReq) } :=
    ⟨⟨fun T => ims_execReqs _ _ T, rfl, rfl, fun h => Schedule.execReqs_inv _ h⟩, fun _ => rfl⟩
  exact q.trans (addAccounts_im _ _)

end Verif.Profile
