import Verif.Referral.Model

/-!
What the operations do to the referral structure, with the status machinery abstracted away: the `core` of a record is the record
without status and downgrade time, the `view` of a store gives the core for every account (the empty record for missing ones).
-/
namespace Verif.Referral

def core (v : Info) : Info := { v with status := 0, downgradeAt := none }

abbrev View := Key → Info

def view (st : KV Nat Info) : View := fun k => core (infoOf st k)

def upd (I : View) (k : Key) (v : Info) : View := fun j => if j = k then v else I j

@[simp] theorem upd_self (I : View) (k : Key) (v : Info) : upd I k v k = v := by simp [upd]
theorem upd_ne (I : View) {k j : Key} (v : Info) (h : j ≠ k) : upd I k v j = I j := by simp [upd, h]

theorem infoOf_set (st : KV Nat Info) (k j : Key) (v : Info) : infoOf (st.set k v) j = if j = k then v else infoOf st j := by
  unfold infoOf
  rw [KV.get_set]
  split <;> simp

theorem view_set (st : KV Nat Info) (k : Key) (v : Info) : view (st.set k v) = upd (view st) k (core v) := by
  funext j
  simp only [view, upd, infoOf_set]
  split <;> rfl

@[simp] theorem core_core (v : Info) : core (core v) = core v := rfl
@[simp] theorem core_referrer (v : Info) : (core v).referrer = v.referrer := rfl
@[simp] theorem core_referrals (v : Info) : (core v).referrals = v.referrals := rfl
@[simp] theorem core_active (v : Info) : (core v).active = v.active := rfl
@[simp] theorem core_activeReferrals (v : Info) : (core v).activeReferrals = v.activeReferrals := rfl
@[simp] theorem core_tot (v : Info) : (core v).tot = v.tot := rfl
@[simp] theorem core_transition (v : Info) : (core v).transition = v.transition := rfl
@[simp] theorem core_compressionAt (v : Info) : (core v).compressionAt = v.compressionAt := rfl
@[simp] theorem core_banishmentAt (v : Info) : (core v).banishmentAt = v.banishmentAt := rfl
@[simp] theorem core_banished (v : Info) : (core v).banished = v.banished := rfl
@[simp] theorem core_closed (v : Info) (now month : Int) : (core v).closed now month = v.closed now month := rfl

theorem has_set (st : KV Nat Info) (k j : Key) (v : Info) : (st.set k v).has j = (decide (j = k) || st.has j) := by
  unfold KV.has
  rw [KV.get_set]
  split <;> simp [*]

theorem infoOf_of_not_has {st : KV Nat Info} {k : Key} (h : st.has k = false) : infoOf st k = {} := by
  unfold KV.has at h
  unfold infoOf
  cases hg : st.get k <;> simp_all

/-! ### Frames -/

/-- Nothing but the bunch updater, the index and the schedule changed, and the bunch updater lost no account. -/
structure Frame (s t : State) : Prop where
  store : t.store = s.store
  purse : t.purse = s.purse
  now : t.now = s.now
  day : t.day = s.day
  dust : t.dust = s.dust
  price : t.price = s.price
  collector : t.collector = s.collector
  grows : ∀ k, s.work.has k = true → t.work.has k = true

/-- Moreover the records did not change. -/
structure Quiet (s t : State) : Prop extends Frame s t where
  work : t.work = s.work

theorem Frame.refl (s : State) : Frame s s := ⟨rfl, rfl, rfl, rfl, rfl, rfl, rfl, fun _ h => h⟩
theorem Quiet.refl (s : State) : Quiet s s := ⟨.refl s, rfl⟩
theorem Frame.trans {s t u : State} (h : Frame s t) (h' : Frame t u) : Frame s u :=
  ⟨h'.store.trans h.store, h'.purse.trans h.purse, h'.now.trans h.now, h'.day.trans h.day, h'.dust.trans h.dust,
    h'.price.trans h.price, h'.collector.trans h.collector, fun k hk => h'.grows k (h.grows k hk)⟩
theorem Quiet.trans {s t u : State} (h : Quiet s t) (h' : Quiet t u) : Quiet s u :=
  ⟨h.toFrame.trans h'.toFrame, h'.work.trans h.work⟩

theorem Frame.month {s t : State} (h : Frame s t) : t.month = s.month := by simp [State.month, h.day]
theorem Frame.balance {s t : State} (h : Frame s t) (k : Key) : t.balance k = s.balance k := by simp [State.balance, h.purse]
theorem Frame.delegated {s t : State} (h : Frame s t) (k : Key) : t.delegated k = s.delegated k := by
  simp [State.delegated, h.purse]

def Framed {α : Type} (m : Act α) : Prop := ∀ s, Frame s (m s).2
def Still {α : Type} (m : Act α) : Prop := ∀ s, Quiet s (m s).2

theorem Still.framed {α : Type} {m : Act α} (h : Still m) : Framed m := fun s => (h s).toFrame

theorem Still.of {α : Type} {m : Act α} {s t : State} {r : Res α} (h : Still m) (e : m s = (r, t)) : Quiet s t := by
  have := h s
  rw [e] at this; exact this

theorem Framed.of {α : Type} {m : Act α} {s t : State} {r : Res α} (h : Framed m) (e : m s = (r, t)) : Frame s t := by
  have := h s
  rw [e] at this; exact this

theorem Framed.bind {α β : Type} {m : Act α} {f : α → Act β} (hm : Framed m) (hf : ∀ a, Framed (f a)) : Framed (m >>= f) := by
  intro s
  have h := hm s
  rw [M.bind_apply]
  rcases hms : m s with ⟨r, t⟩
  rw [hms] at h
  cases r with
  | ok a => exact h.trans (hf a t)
  | err => exact h
  | panic => exact h

theorem Still.bind {α β : Type} {m : Act α} {f : α → Act β} (hm : Still m) (hf : ∀ a, Still (f a)) : Still (m >>= f) := by
  intro s
  have h := hm s
  rw [M.bind_apply]
  rcases hms : m s with ⟨r, t⟩
  rw [hms] at h
  cases r with
  | ok a => exact h.trans (hf a t)
  | err => exact h
  | panic => exact h

theorem Still.pure {α : Type} (a : α) : Still (Pure.pure a : Act α) := fun s => .refl s
theorem Still.err {α : Type} : Still (M.err : Act α) := fun s => .refl s
theorem Still.panic {α : Type} : Still (M.panic : Act α) := fun s => .refl s
theorem Still.get : Still (M.get : Act State) := fun s => .refl s
theorem Still.errIf (c : Bool) : Still (M.errIf c : Act Unit) := fun s => by cases c <;> exact .refl s
theorem Still.panicIf (c : Bool) : Still (M.panicIf c : Act Unit) := fun s => by cases c <;> exact .refl s
theorem Still.orPanic {α : Type} (o : Option α) : Still (M.orPanic o : Act α) := fun s => by cases o <;> exact .refl s
theorem Still.ite {α : Type} {c : Prop} [Decidable c] {a b : Act α} (ha : Still a) (hb : Still b) : Still (if c then a else b) := by
  split <;> assumption
theorem Framed.ite {α : Type} {c : Prop} [Decidable c] {a b : Act α} (ha : Framed a) (hb : Framed b) :
    Framed (if c then a else b) := by
  split <;> assumption

theorem Framed.recover {α : Type} {m : Act α} (h : Framed m) : Framed (recover m) := by
  intro s
  have := h s
  unfold Referral.recover
  rcases hm : m s with ⟨r, t⟩
  rw [hm] at this
  cases r <;> exact this

theorem Framed.must {α : Type} {m : Act α} (h : Framed m) : Framed (must m) := by
  intro s
  have := h s
  unfold Referral.must
  rcases hm : m s with ⟨r, t⟩
  rw [hm] at this
  cases r <;> exact this

theorem recover_ok_iff {α : Type} {m : Act α} {s t : State} {a : α} : recover m s = (.ok a, t) ↔ m s = (.ok a, t) := by
  unfold recover
  rcases hm : m s with ⟨r, u⟩
  cases r <;> simp

theorem must_ok_iff {α : Type} {m : Act α} {s t : State} {a : α} : must m s = (.ok a, t) ↔ m s = (.ok a, t) := by
  unfold must
  rcases hm : m s with ⟨r, u⟩
  cases r <;> simp

theorem Still.setStatus (v : Info) (x : Nat) (k : Key) : Still (setStatus v x k) := by
  unfold Referral.setStatus
  intro s
  rw [M.bind_ok (M.get_apply s)]
  split
  · exact .refl s
  · exact ⟨⟨rfl, rfl, rfl, rfl, rfl, rfl, rfl, fun _ h => h⟩, rfl⟩

theorem setStatus_core {v w : Info} {x : Nat} {k : Key} {s t : State} (h : setStatus v x k s = (.ok w, t)) : core w = core v := by
  unfold setStatus at h
  rw [M.get_bind_ok] at h
  split at h
  · simp at h; rw [h.1]
  · rw [M.bind_ok_iff] at h
    obtain ⟨_, _, -, h⟩ := h
    simp at h
    rw [← h.1]; rfl

theorem setStatus_succeeds (v : Info) (x : Nat) (k : Key) (s : State) : ∃ w t, setStatus v x k s = (.ok w, t) := by
  unfold setStatus
  rw [M.bind_ok (M.get_apply s)]
  split
  · exact ⟨_, _, rfl⟩
  · exact ⟨_, _, rfl⟩

theorem Still.request (r : Schedule.Req) : Still (request r) := by
  unfold Referral.request
  intro s
  rw [M.bind_ok (M.get_apply s)]
  cases h : r.exec? s.sched with
  | none =>
    rw [M.bind_panic (M.orPanic_none s)]
    exact .refl s
  | some t =>
    rw [M.bind_ok (M.orPanic_some t s)]
    exact ⟨⟨rfl, rfl, rfl, rfl, rfl, rfl, rfl, fun _ h => h⟩, rfl⟩

theorem Still.addCall (e : Event) (k : Key) : Still (addCall e k) := fun _ =>
  ⟨⟨rfl, rfl, rfl, rfl, rfl, rfl, rfl, fun _ h => h⟩, rfl⟩

theorem Still.scheduleBanishment (k : Key) (v : Info) : Still (scheduleBanishment k v) :=
  .bind .get fun _ => .bind (.request _) fun _ => .pure _

theorem Still.checkStatus (k : Key) (v : Info) : Still (checkStatus k v) := by
  unfold Referral.checkStatus
  refine .bind ?_ fun w => .bind .get fun s => .bind (.orPanic _) fun b => ?_
  · split
    · exact .bind (.setStatus _ _ _) fun _ => .bind (.addCall _ _) fun _ => .pure _
    · exact .pure _
  · refine .ite ?_ ?_
    · refine .bind (.orPanic _) fun n => ?_
      exact .ite (.bind (.setStatus _ _ _) fun _ => .bind (.addCall _ _) fun _ => .pure _) (.pure _)
    · exact .ite (.bind (.request _) fun _ => .pure _) (.pure _)

theorem checkStatus_core {k : Key} {v w : Info} {s t : State} (h : checkStatus k v s = (.ok w, t)) : core w = core v := by
  unfold checkStatus at h
  rw [M.bind_ok_iff] at h
  obtain ⟨v1, s1, h1, h⟩ := h
  have e1 : core v1 = core v := by
    split at h1
    · rw [M.bind_ok_iff] at h1
      obtain ⟨w1, s2, h2, h1⟩ := h1
      rw [M.bind_ok_iff] at h1
      obtain ⟨-, s3, -, h1⟩ := h1
      simp at h1
      rw [← h1.1, setStatus_core h2]
    · simp at h1; rw [h1.1]
  rw [M.get_bind_ok, M.orPanic_bind_ok] at h
  obtain ⟨b, -, h⟩ := h
  rw [← e1]
  split at h
  · rw [M.orPanic_bind_ok] at h
    obtain ⟨n, -, h⟩ := h
    split at h
    · rw [M.bind_ok_iff] at h
      obtain ⟨w1, s2, h2, h⟩ := h
      rw [M.bind_ok_iff] at h
      obtain ⟨-, s3, -, h⟩ := h
      simp at h
      rw [← h.1, setStatus_core h2]; rfl
    · simp at h
      rw [← h.1]; rfl
  · split at h
    · rw [M.bind_ok_iff] at h
      obtain ⟨-, s2, -, h⟩ := h
      simp at h
      rw [← h.1]; rfl
    · simp at h; rw [h.1]

theorem Framed.put (k : Key) (v : Info) : Framed (put k v) := by
  intro s
  refine ⟨rfl, rfl, rfl, rfl, rfl, rfl, rfl, fun j hj => ?_⟩
  show (s.work.set k v).has j = true
  rw [has_set, hj]; simp

theorem Framed.update {α : Type} {k : Key} {check : Bool} {f : Info → Act (Info × α)} (hf : ∀ v, Framed (f v)) :
    Framed (update k check f) := by
  unfold Referral.update
  refine .recover (.bind Still.get.framed fun s => .bind (hf _) fun r => .bind ?_ fun v => .bind (.put _ _) fun _ => (Still.pure _).framed)
  split
  · exact (Still.checkStatus _ _).framed
  · exact (Still.pure _).framed

/-- What a successful update does. -/
theorem update_ok {α : Type} {k : Key} {check : Bool} {f : Info → Act (Info × α)} {s t : State} {a : α}
    (h : update k check f s = (.ok a, t)) :
    ∃ w s1, f (infoOf s.work k) s = (.ok (w, a), s1) ∧ Frame s1 t ∧ view t.work = upd (view s1.work) k (core w) ∧
      t.work.has k = true := by
  unfold update at h
  rw [recover_ok_iff, M.get_bind_ok, M.bind_ok_iff] at h
  obtain ⟨r, s1, h1, h⟩ := h
  rw [M.bind_ok_iff] at h
  obtain ⟨v, s2, h2, h⟩ := h
  have hq : Quiet s1 s2 ∧ core v = core r.1 := by
    cases check with
    | true =>
      rw [if_pos rfl] at h2
      have := Still.checkStatus k r.1 s1
      rw [h2] at this
      exact ⟨this, checkStatus_core h2⟩
    | false =>
      rw [if_neg (by simp)] at h2
      simp at h2
      rw [h2.1, h2.2]
      exact ⟨.refl _, rfl⟩
  obtain ⟨hq, hc⟩ := hq
  rw [M.bind_ok_iff] at h
  obtain ⟨_, s3, h3, h⟩ := h
  simp at h
  obtain ⟨rfl, rfl⟩ := h
  have h4 : s3 = { s2 with work := s2.work.set k v } := by
    unfold put at h3
    simp at h3
    exact h3.symm
  have hp := Framed.put k v s2
  rw [h3] at hp
  refine ⟨r.1, s1, h1, hq.toFrame.trans hp, ?_, ?_⟩
  · rw [h4]
    show view (s2.work.set k v) = _
    rw [view_set, hc, hq.work]
  · rw [h4]
    show (s2.work.set k v).has k = true
    rw [has_set]; simp

/-! ### Walking up -/

/-- The effect of `climb` -/
def climbV (g : Nat → Info → Info) : Nat → Nat → Option Key → View → View
  | 0, _, _, I => I
  | _ + 1, _, none, I => I
  | n + 1, l, some k, I => climbV g n (l + 1) (I k).referrer (upd I k (g l (I k)))

theorem Framed.climb {check : Bool} {f : Nat → Key → Info → Act Info} (hf : ∀ l k v, Framed (f l k v)) :
    ∀ (n l : Nat) (k : Option Key), Framed (climb check f n l k) := by
  intro n
  induction n with
  | zero => intro l k; exact (Still.pure _).framed
  | succ n ih =>
    intro l k
    cases k with
    | none => exact (Still.pure _).framed
    | some k =>
      unfold Referral.climb
      exact .bind (.update fun v => .bind (hf l k v) fun w => (Still.pure _).framed) fun next => ih _ _

theorem climb_ok {check : Bool} {f : Nat → Key → Info → Act Info} {g : Nat → Info → Info}
    (hf : ∀ l k v s w t, f l k v s = (.ok w, t) → Quiet s t ∧ core w = g l (core v)) :
    ∀ (n l : Nat) (k : Option Key) (s t : State), climb check f n l k s = (.ok (), t) →
      Frame s t ∧ view t.work = climbV g n l k (view s.work) := by
  intro n
  induction n with
  | zero =>
    intro l k s t h
    simp [climb] at h
    rw [h]
    exact ⟨.refl _, rfl⟩
  | succ n ih =>
    intro l k s t h
    cases k with
    | none =>
      simp [climb] at h
      rw [h]
      exact ⟨.refl _, rfl⟩
    | some k =>
      unfold climb at h
      rw [M.bind_ok_iff] at h
      obtain ⟨next, s1, h1, h⟩ := h
      obtain ⟨w, s2, h2, hfr, hv, -⟩ := update_ok h1
      rw [M.bind_ok_iff] at h2
      obtain ⟨w', s3, h3, h2⟩ := h2
      obtain ⟨hq, hc⟩ := hf _ _ _ _ _ _ h3
      simp at h2
      obtain ⟨⟨rfl, rfl⟩, rfl⟩ := h2
      obtain ⟨hfr2, hv2⟩ := ih _ _ _ _ h
      refine ⟨(hq.toFrame.trans hfr).trans hfr2, ?_⟩
      rw [hv2, hv, hq.work, hc]
      rfl

theorem Framed.forEach {β : Type} {l : List β} {f : β → Act Unit} (h : ∀ b, Framed (f b)) : Framed (M.forEach l f) := by
  induction l with
  | nil => exact (Still.pure _).framed
  | cons b l ih => rw [M.forEach_cons]; exact .bind (h b) fun _ => ih

end Verif.Referral
