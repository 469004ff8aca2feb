import Verif.Referral.Deadlines4

/-! Property C51: nothing but its resolution and its own timeout ends a request for a transition; the calculus. -/
namespace Verif.Referral

/-- A timeout of `k` is on the list of the scheduler under the time `x`. -/
def slot (sch : Schedule.State) (k : Key) (x : Int) : Prop := ∃ y ∈ (sch.store.get x).getD [], y.handler = timeoutHook ∧ y.data = [k]

theorem slot_of_schedule {s t : Schedule.State} {x : Int} {h : Nat} {k : Key} (he : (Schedule.Req.schedule x h [k]).exec? s = some t) (j : Key) (z : Int) :
    slot t j z ↔ slot s j z ∨ (z = x ∧ h = timeoutHook ∧ k = j) := by
  obtain ⟨-, -, hst⟩ := Schedule.schedule?_spec he
  unfold slot
  rw [hst, KV.get_set]
  by_cases hz : z = x
  · rw [if_pos hz, hz]
    simp only [Option.getD_some, List.mem_append, List.mem_singleton]
    constructor
    · rintro ⟨y, hy | hy, h1, h2⟩
      · exact .inl ⟨y, hy, h1, h2⟩
      · rw [hy] at h1 h2
        injection h2 with h2
        exact .inr ⟨trivial, h1, h2⟩
    · rintro (⟨y, hy, h12⟩ | ⟨-, h1, h2⟩)
      · exact ⟨y, .inl hy, h12⟩
      · exact ⟨_, .inr rfl, h1, by rw [h2]⟩
  · rw [if_neg hz]
    constructor
    · exact .inl
    · rintro (h | ⟨h, -⟩)
      · exact h
      · exact absurd h hz

theorem slot_of_delete {s t : Schedule.State} {x : Int} {h : Nat} {k : Key} (hh : h ≠ timeoutHook)
    (he : (Schedule.Req.delete x h [k]).exec? s = some t) (j : Key) (z : Int) : slot t j z ↔ slot s j z := by
  unfold slot
  rw [Schedule.delete?_get he]
  by_cases hz : z = x
  · rw [if_pos hz, hz]
    cases hg : s.store.get x with
    | none => exact Iff.rfl
    | some l =>
      have key : (∃ y ∈ l.filter (fun t => !(t.handler == h && t.data == [k])), y.handler = timeoutHook ∧ y.data = [j]) ↔
          ∃ y ∈ l, y.handler = timeoutHook ∧ y.data = [j] := by
        constructor
        · rintro ⟨y, hy, h12⟩; exact ⟨y, (List.mem_filter.1 hy).1, h12⟩
        · rintro ⟨y, hy, h1, h2⟩
          refine ⟨y, List.mem_filter.2 ⟨hy, ?_⟩, h1, h2⟩
          rw [h1]
          have : (timeoutHook == h) = false := by rw [beq_eq_false_iff_ne]; exact fun hc => hh hc.symm
          rw [this]; rfl
      dsimp only
      split
      · rename_i hemp
        rw [List.isEmpty_iff] at hemp
        rw [hemp] at key
        simpa using key
      · simpa using key
  · rw [if_neg hz]

/-! ### The calculus -/

/-- What is to be kept: a property of the pending transition of `j`, a property of the schedule that other tasks do not touch, the time
and the length of a day. -/
structure Terms where
  j : Key
  p : Option Key → Prop
  q : Schedule.State → Prop
  n : Int
  y : Int
  book : ∀ {s t : Schedule.State} {x : Int} {h : Nat} {k : Key}, h ≠ timeoutHook → (Schedule.Req.schedule x h [k]).exec? s = some t → q s → q t
  unbook : ∀ {s t : Schedule.State} {x : Int} {k : Key}, (Schedule.Req.delete x banishHook [k]).exec? s = some t → q s → q t

structure Terms.Out (c : Terms) (s : State) : Prop where
  now : s.now = c.n
  day : s.day = c.y
  sched : c.q s.sched
  store : c.p (infoOf s.store c.j).transition

structure Terms.In (c : Terms) (s : State) : Prop extends c.Out s where
  work : c.p (infoOf s.work c.j).transition

abbrev Terms.Fine (c : Terms) (k : Key) (v : Info) : Prop := k = c.j → c.p v.transition

def Stay {α : Type} (P : State → Prop) (Q : α → Prop) (m : Act α) : Prop := ∀ s, P s → P (m s).2 ∧ ∀ a, (m s).1 = .ok a → Q a

variable {P : State → Prop}

theorem Stay.bind {α β : Type} {Q : α → Prop} {R : β → Prop} {m : Act α} {f : α → Act β} (hm : Stay P Q m) (hf : ∀ a, Q a → Stay P R (f a)) :
    Stay P R (m >>= f) := by
  intro s hs
  obtain ⟨h1, h2⟩ := hm s hs
  rw [M.bind_apply]
  rcases hms : m s with ⟨r, t⟩
  rw [hms] at h1 h2
  cases r with
  | ok a => exact hf a (h2 a rfl) t h1
  | err => exact ⟨h1, by intro a h; cases h⟩
  | panic => exact ⟨h1, by intro a h; cases h⟩

theorem Stay.pure {α : Type} {Q : α → Prop} {a : α} (h : Q a) : Stay P Q (Pure.pure a : Act α) :=
  fun _ hs => ⟨hs, by intro b hb; cases hb; exact h⟩
theorem Stay.err {α : Type} {Q : α → Prop} : Stay P Q (M.err : Act α) := fun _ hs => ⟨hs, by intro b hb; cases hb⟩
theorem Stay.panic {α : Type} {Q : α → Prop} : Stay P Q (M.panic : Act α) := fun _ hs => ⟨hs, by intro b hb; cases hb⟩
theorem Stay.get : Stay P P (M.get : Act State) := fun s hs => ⟨hs, by intro b hb; cases hb; exact hs⟩
theorem Stay.errIf (c : Bool) : Stay P (fun _ => c = false) (M.errIf c : Act Unit) := fun s hs => by
  cases c with
  | false => exact ⟨hs, fun _ _ => rfl⟩
  | true => exact ⟨hs, by intro b hb; cases hb⟩
theorem Stay.panicIf (c : Bool) : Stay P Any (M.panicIf c : Act Unit) := fun s hs => ⟨by cases c <;> exact hs, fun _ _ => trivial⟩
theorem Stay.orPanic {α : Type} {o : Option α} : Stay P Any (M.orPanic o : Act α) := fun s hs => by
  cases o <;> exact ⟨hs, fun _ _ => trivial⟩
theorem Stay.modify {f : State → State} (h : ∀ s, P s → P (f s)) : Stay P Any (M.modify f) := fun s hs => ⟨h s hs, fun _ _ => trivial⟩
theorem Stay.ite {α : Type} {Q : α → Prop} {c : Prop} [Decidable c] {a b : Act α} (ha : Stay P Q a) (hb : Stay P Q b) :
    Stay P Q (if c then a else b) := by split <;> assumption
theorem Stay.weaken {α : Type} {Q R : α → Prop} {m : Act α} (h : Stay P Q m) (hr : ∀ a, Q a → R a) : Stay P R m :=
  fun s hs => ⟨(h s hs).1, fun a ha => hr a ((h s hs).2 a ha)⟩
theorem Stay.any {α : Type} {Q : α → Prop} {m : Act α} (h : Stay P Q m) : Stay P Any m := h.weaken fun _ _ => trivial

theorem Stay.recover {α : Type} {Q : α → Prop} {m : Act α} (h : Stay P Q m) : Stay P Q (recover m) := by
  intro s hs
  have := h s hs
  unfold Referral.recover
  rcases hm : m s with ⟨r, t⟩
  rw [hm] at this
  cases r with
  | ok a => exact this
  | err => exact this
  | panic => exact ⟨this.1, by intro a h; cases h⟩

theorem Stay.must {α : Type} {Q : α → Prop} {m : Act α} (h : Stay P Q m) : Stay P Q (must m) := by
  intro s hs
  have := h s hs
  unfold Referral.must
  rcases hm : m s with ⟨r, t⟩
  rw [hm] at this
  cases r with
  | ok a => exact this
  | panic => exact this
  | err => exact ⟨this.1, by intro a h; cases h⟩

theorem Stay.forEach {β : Type} {l : List β} {f : β → Act Unit} (h : ∀ b, Stay P Any (f b)) : Stay P Any (M.forEach l f) := by
  induction l with
  | nil => exact .pure trivial
  | cons b l ih => rw [M.forEach_cons]; exact .bind (h b) fun _ _ => ih

theorem Stay.tx {α : Type} {Q : α → Prop} {m : Act α} (h : Stay P Q m) {s : State} (hs : P s) : P (M.tx m s) := by
  rcases M.tx_cases m s with ⟨x, hx⟩ | ⟨-, hx⟩
  · have := (h s hs).1
    rw [hx] at this; exact this
  · rw [hx]; exact hs

variable {c : Terms}

theorem Stay.request {r : Schedule.Req} (hP : ∀ s t, P s → c.q t → P { s with sched := t }) (hq : ∀ s, P s → c.q s.sched)
    (hr : ∀ s t, r.exec? s = some t → c.q s → c.q t) : Stay P Any (request r) := by
  intro s hs
  unfold Referral.request
  rw [M.bind_ok (M.get_apply s)]
  cases h : r.exec? s.sched with
  | none => rw [M.bind_panic (M.orPanic_none s)]; exact ⟨hs, fun _ _ => trivial⟩
  | some u => rw [M.bind_ok (M.orPanic_some u s)]; exact ⟨hP s u hs (hr _ _ h (hq s hs)), fun _ _ => trivial⟩

theorem Stay.requestIn {r : Schedule.Req} (hr : ∀ s t, r.exec? s = some t → c.q s → c.q t) : Stay c.In Any (Referral.request r) :=
  .request (c := c) (fun _ _ hs ht => ⟨⟨hs.now, hs.day, ht, hs.store⟩, hs.work⟩) (fun _ hs => hs.sched) hr
theorem Stay.requestOut {r : Schedule.Req} (hr : ∀ s t, r.exec? s = some t → c.q s → c.q t) : Stay c.Out Any (Referral.request r) :=
  .request (c := c) (fun _ _ hs ht => ⟨hs.now, hs.day, ht, hs.store⟩) (fun _ hs => hs.sched) hr
theorem Stay.book {x : Int} {h : Nat} {k : Key} (hh : h ≠ timeoutHook) : Stay c.In Any (Referral.request (.schedule x h [k])) :=
  .requestIn fun _ _ he => c.book hh he
theorem Stay.unbook {x : Int} {k : Key} : Stay c.In Any (Referral.request (.delete x banishHook [k])) :=
  .requestIn fun _ _ he => c.unbook he
theorem Stay.addCall (e : Event) (k : Key) : Stay c.In Any (addCall e k) := .modify fun _ hs => ⟨⟨hs.now, hs.day, hs.sched, hs.store⟩, hs.work⟩

theorem Stay.setStatus {v : Info} {x : Nat} {k i : Key} (hv : c.Fine i v) : Stay c.In (c.Fine i) (setStatus v x k) := by
  intro s hs
  unfold Referral.setStatus
  rw [M.bind_ok (M.get_apply s)]
  split
  · exact ⟨hs, by intro a ha; cases ha; exact hv⟩
  · exact ⟨⟨⟨hs.now, hs.day, hs.sched, hs.store⟩, hs.work⟩, by intro a ha; cases ha; exact hv⟩

theorem Stay.checkStatus {k i : Key} {v : Info} (hv : c.Fine i v) : Stay c.In (c.Fine i) (checkStatus k v) := by
  unfold Referral.checkStatus
  refine .bind (Q := c.Fine i) ?_ fun v hv => .bind .get fun s _ => .bind .orPanic fun b _ => ?_
  · refine .ite (.bind (.setStatus hv) fun w hw => .bind (.addCall _ _) fun _ _ => .pure hw) (.pure hv)
  · refine .ite (.bind .orPanic fun n hn => ?_) (.ite ?_ (.pure hv))
    · exact .ite (.bind (.setStatus (i := i) (by exact hv)) fun w hw => .bind (.addCall _ _) fun _ _ => .pure hw) (.pure hv)
    · exact .bind (.book (by decide)) fun _ _ => .pure hv

theorem Stay.put {k : Key} {v : Info} (hv : c.Fine k v) : Stay c.In Any (put k v) :=
  .modify fun s hs => ⟨⟨hs.now, hs.day, hs.sched, hs.store⟩, by
    show c.p (infoOf (s.work.set k v) c.j).transition
    rw [infoOf_set]
    split
    · rename_i h; exact hv h.symm
    · exact hs.work⟩

theorem Stay.update {α : Type} {Q : α → Prop} {k : Key} {check : Bool} {f : Info → Act (Info × α)}
    (hf : ∀ v, c.Fine k v → Stay c.In (fun r : Info × α => c.Fine k r.1 ∧ Q r.2) (f v)) : Stay c.In Q (update k check f) := by
  unfold Referral.update
  refine .recover (.bind .get fun s hs => .bind (hf _ fun h => by rw [h]; exact hs.work) fun r hr =>
    .bind (Q := c.Fine k) ?_ fun v hv => .bind (.put hv) fun _ _ => .pure hr.2)
  exact .ite (.checkStatus hr.1) (.pure hr.1)

theorem Stay.bunch {e : Env} {m : Act Bool} (hm : Stay c.In Any m) : Stay c.Out Any (bunch e m) := by
  intro s hs
  refine ⟨?_, fun _ _ => trivial⟩
  have h0 : (Referral.bunch e m) s = (m >>= fun b => if b then Referral.commit e else Pure.pure ()) s.fresh := rfl
  have hf : c.In s.fresh := ⟨⟨hs.now, hs.day, hs.sched, hs.store⟩, hs.store⟩
  have hi := (hm s.fresh hf).1
  rcases hr : m s.fresh with ⟨r, t⟩
  rw [hr] at hi
  cases r with
  | err => rw [h0, M.bind_err hr]; exact hi.toOut
  | panic => rw [h0, M.bind_panic hr]; exact hi.toOut
  | ok b =>
    rw [h0, M.bind_ok hr]
    cases b with
    | false => exact hi.toOut
    | true =>
      rw [if_pos rfl]
      unfold Referral.commit
      rw [M.bind_ok (M.modify_apply _ t), M.bind_ok (M.get_apply _)]
      dsimp only
      generalize (!t.calls.all fun c => e.call c.1 c.2) = x
      cases x <;> exact ⟨hi.now, hi.day, hi.sched, hi.work⟩

theorem Stay.climb {check : Bool} {f : Nat → Key → Info → Act Info} (hf : ∀ l k v, c.Fine k v → Stay c.In (c.Fine k) (f l k v)) :
    ∀ (n l : Nat) (k : Option Key), Stay c.In Any (climb check f n l k) := by
  intro n
  induction n with
  | zero => intro l k; exact .pure trivial
  | succ n ih =>
    intro l k
    cases k with
    | none => exact .pure trivial
    | some k =>
      unfold Referral.climb
      exact .bind (Q := Any) (.update fun v hv => .bind (hf l k v hv) fun w hw => .pure ⟨hw, trivial⟩) fun next _ => ih _ _

/-! ### The operations -/

theorem Stay.appendChild (e : Env) (p i : Key) (a b : Bool) : Stay c.Out Any (appendChild e p i a b) := by
  unfold Referral.appendChild
  refine .bind .get fun s0 h0 => .bind (.errIf _) fun _ hn => .bunch ?_
  have hnew : ∀ w : Info, w.transition = none → c.Fine i w := by
    intro w hw hi
    rw [hw]
    have := h0.store
    rw [← hi, infoOf_of_not_has hn] at this
    exact this
  unfold Referral.appendBody
  refine .bind .get fun s _ => .bind (.put (hnew _ ?_)) fun _ _ =>
    .bind (Q := Any) (.update fun v hv => .bind (.addCall _ _) fun _ _ => .pure ⟨hv, trivial⟩) fun r _ => .bind (.errIf _) fun _ _ =>
      .bind (.climb (fun l k v hv => .bind (.addCall _ _) fun _ _ => .pure (by exact hv)) _ _ _) fun _ _ => .pure trivial
  split <;> rfl

theorem Stay.scheduleBanishment {k i : Key} {v : Info} (hv : c.Fine i v) : Stay c.In (c.Fine i) (scheduleBanishment k v) :=
  .bind .get fun _ _ => .bind (.book (by decide)) fun _ _ => .pure hv

theorem Stay.compress (e : Env) (k : Key) : Stay c.Out Any (compress e k) := by
  refine .bunch ?_
  unfold compressBody
  refine .bind (Q := Any) (.update fun v hv => ?_) fun old _ => .bind (.forEach fun i => .update fun v hv => .pure ⟨hv, trivial⟩) fun _ _ =>
    .bind (.climb (fun l k v hv => .bind (.addCall _ _) fun _ _ => .pure ?_) _ _ _) fun _ _ => .pure trivial
  · unfold compressSelf
    refine .bind (.errIf _) fun _ _ => .bind (.addCall _ _) fun _ _ => .bind (.setStatus (i := k) (by exact hv)) fun w hw =>
      .bind (.addCall _ _) fun _ _ => .bind .orPanic fun d _ => .bind .get fun s _ =>
      .bind (Q := c.Fine k) (.ite (.scheduleBanishment hw) (.pure hw)) fun w hw => .pure ⟨hw, trivial⟩
  · show k = c.j → c.p (if l = 1 then _ else _ : Info).transition
    split <;> exact hv

theorem Stay.attach (k : Key) (x d : Int) (p : Option Key) : Stay c.In Any (attach k x d p) := by
  cases p with
  | none => exact .pure trivial
  | some p =>
    exact .bind (Q := Any) (.update fun v hv => .pure ⟨hv, trivial⟩) fun next _ => .ite (.pure trivial) (.climb (fun l k v hv => .pure (by exact hv)) _ _ _)

theorem Stay.detach (k : Key) (x d : Int) (p : Option Key) : Stay c.In Any (detach k x d p) := by
  cases p with
  | none => exact .pure trivial
  | some p =>
    exact .bind (Q := Any) (.update fun v hv => .pure ⟨hv, trivial⟩) fun next _ => .ite (.pure trivial) (.climb (fun l k v hv => .pure (by exact hv)) _ _ _)

theorem Stay.delegationChanged {k i : Key} {v : Info} (hv : c.Fine i v) (d : Int) : Stay c.In (c.Fine i) (delegationChanged k v d) := by
  unfold Referral.delegationChanged
  refine .bind .get fun s _ => .ite (.pure hv) (.bind .orPanic fun d _ => .ite (.ite (.scheduleBanishment hv) (.pure hv)) ?_)
  unfold reviveDelegator
  refine .bind (Q := c.Fine i) ?_ fun v hv => .ite ?_ (.pure hv)
  · cases v.banishmentAt with
    | none => exact .pure hv
    | some t => exact .bind .unbook fun _ _ => .pure hv
  · exact .bind .get fun _ _ => .bind .orPanic fun p _ => .bind (.attach _ _ _ _) fun _ _ => .pure (by exact hv)

theorem Stay.onBalanceChanged (e : Env) (k : Key) : Stay c.Out Any (onBalanceChanged e k) := by
  refine .bunch ?_
  unfold balanceBody
  refine .bind .get fun s _ => .ite (.pure trivial) (.bind (Q := Any) (.update fun v hv => ?_) fun r _ => .bind (.ite (.pure trivial)
    (.climb (fun l a v hv => .bind (Q := Any) (.ite (.pure trivial) (.addCall _ _)) fun _ _ => .pure (by exact hv)) _ _ _)) fun _ _ => .pure trivial)
  unfold Referral.ownBalance
  exact .bind .get fun s _ => .bind (Q := c.Fine k) (.ite (.pure hv) (.bind (.addCall _ _) fun _ _ => .delegationChanged hv _)) fun w hw =>
    .pure ⟨hw, trivial⟩

theorem Stay.comeBack (e : Env) (k : Key) : Stay c.Out Any (comeBack e k) := by
  refine .bunch ?_
  unfold comeBackBody
  exact .bind (Q := Any) (.update fun v hv => .bind .get fun _ _ => .bind .orPanic fun p _ =>
    .pure ⟨(by exact hv), trivial⟩) fun r _ => .bind (.attach _ _ _ _) fun _ _ => .pure trivial

theorem Stay.setActive (e : Env) (k : Key) (value check : Bool) : Stay c.Out Any (setActive e k value check) := by
  refine .bunch ?_
  unfold activeBody
  refine .bind .get fun s _ => .ite (.pure trivial) (.bind (Q := Any) (.update fun v hv => ?_) fun parent _ =>
    .bind (.climb (fun l a v hv => .pure ?_) _ _ _) fun _ _ => .bind (.ite (.book (by decide)) (.pure trivial)) fun _ _ => .pure trivial)
  · unfold activateSelf
    refine .bind .get fun s _ => .bind (Q := c.Fine k) ?_ fun w hw => .pure ⟨hw, trivial⟩
    cases v.banishmentAt with
    | none => exact .pure hv
    | some t => exact .ite (.bind .unbook fun _ _ => .pure hv) (.pure hv)
  · show a = c.j → c.p (if l = 1 then _ else _ : Info).transition
    split <;> exact hv

theorem Stay.setPurse (e : Env) (a : Addr) (p : Purse) : Stay c.Out Any (setPurse e a p) :=
  .bind (.modify fun _ hs => ⟨hs.now, hs.day, hs.sched, hs.store⟩) fun _ _ => .onBalanceChanged e _

theorem Stay.pay (e : Env) (a : Addr) (x : Int) : Stay c.Out Any (pay e a x) :=
  .bind .get fun _ _ => .bind (.errIf _) fun _ _ => .bind (.setPurse _ _ _) fun _ _ => .bind .get fun _ _ => .setPurse _ _ _

theorem Stay.setInfo {k : Key} {v : Info} (hv : c.Fine k v) : Stay c.Out Any (setInfo k v) :=
  .modify fun s hs => ⟨hs.now, hs.day, hs.sched, by
    show c.p (infoOf (s.store.set k v) c.j).transition
    rw [infoOf_set]
    split
    · rename_i h; exact hv h.symm
    · exact hs.store⟩

theorem Stay.validateTransition (k : Key) (x : Option Key) (b : Bool) : Stay P Any (validateTransition k x b) := by
  unfold Referral.validateTransition
  refine .bind .get fun _ _ => ?_
  cases x with
  | none => exact .err
  | some p =>
    exact .bind (.errIf _) fun _ _ => .bind (.errIf _) fun _ _ => .bind (.errIf _) fun _ _ => .bind (.errIf _) fun _ _ =>
      .bind .orPanic fun _ _ => (Stay.errIf _).any

theorem Stay.requestTransition (e : Env) (k : Key) (x : Option Key) (hx : k = c.j → c.p x)
    (hq : ∀ s t, (Schedule.Req.schedule (c.n + c.y) timeoutHook [k]).exec? s = some t → c.q s → c.q t) : Stay c.Out Any (requestTransition e k x) := by
  unfold Referral.requestTransition
  refine .bind (.validateTransition _ _ _) fun _ _ => .bind .get fun s _ => .bind (.ite (.pay _ _ _) (.pure trivial)) fun _ _ =>
    .bind .get fun s hs => .bind (.setInfo fun h => hx h) fun _ _ => ?_
  rw [hs.now, hs.day]
  exact .requestOut hq

theorem Stay.cancelTransition (k : Key) (hk : k = c.j → c.p none) : Stay c.Out Any (cancelTransition k) := .bind .get fun _ _ => .setInfo fun h => hk h

theorem Stay.moveTotals (x : What → Nat → Int) : ∀ (n l : Nat) (a b : Option Key), Stay c.In Any (moveTotals x n l a b) := by
  intro n
  induction n with
  | zero => intros; exact .pure trivial
  | succ n ih =>
    intro l a b
    have one : ∀ (sign : Int) (o : Option Key), Stay c.In Any (match o with
      | none => (Pure.pure none : Act (Option Key))
      | some a => Referral.update a true (fun v => Pure.pure (v.addTree sign x l, v.referrer))) := by
      intro sign o
      cases o with
      | none => exact .pure trivial
      | some a => exact .update fun v hv => .pure ⟨hv, trivial⟩
    unfold Referral.moveTotals
    exact .ite (.pure trivial) (.bind (one _ _) fun _ _ => .bind (one _ _) fun _ _ => ih _ _ _)

theorem Stay.affirmTransition (e : Env) (k : Key) (hk : k = c.j → c.p none) : Stay c.Out Any (affirmTransition e k) := by
  unfold Referral.affirmTransition
  refine .bind .get fun s hs => .bind (.validateTransition _ _ _) fun _ _ => .bind (.setInfo fun h => hk h) fun _ _ => ?_
  split
  · refine .must (.bunch ?_)
    unfold moveBody leave join
    exact .bind (Q := Any) (.update fun v hv => .bind (.panicIf _) fun _ _ => .pure ⟨hv, trivial⟩) fun _ _ =>
      .bind (Q := Any) (.update fun v hv => .pure ⟨hv, trivial⟩) fun _ _ => .bind (.moveTotals _ _ _ _ _) fun _ _ => .pure trivial
  · exact .panic

theorem Stay.resolveTransition (e : Env) (g k : Key) (b : Bool) (hk : k = c.j → c.p none) : Stay c.Out Any (resolveTransition e g k b) :=
  .bind .get fun _ _ => .bind (.errIf _) fun _ _ => .ite (.affirmTransition e k hk) (.cancelTransition k hk)

theorem Stay.banish (e : Env) (k : Key) : Stay c.Out Any (banish e k) := by
  refine .bind (.bunch ?_) fun _ _ => (Stay.errIf _).any
  unfold banishBody banishSelf
  exact .bind (Q := Any) (.update fun v hv => .bind .get fun _ _ => .bind (.errIf _) fun _ _ => .bind (.errIf _) fun _ _ =>
    .bind .orPanic fun _ _ => .bind (.errIf _) fun _ _ => .pure ⟨(by exact hv), trivial⟩) fun v _ =>
    .bind (.errIf _) fun _ _ => .bind (.detach _ _ _ _) fun _ _ => .pure trivial

theorem Stay.performDowngrade (e : Env) (k : Key) : Stay c.Out Any (performDowngrade e k) := by
  refine .bunch ?_
  unfold downgradeBody downgradeSelf
  exact .bind (Q := Any) (.update fun v hv => .bind .get fun s _ => .ite (.pure ⟨hv, trivial⟩) (.ite .panic (.bind (.setStatus (i := k) hv) fun w hw => .pure ⟨hw, trivial⟩)))
    fun _ _ => .bind (.addCall _ _) fun _ _ => .pure trivial

theorem Stay.returnIfBanished (e : Env) (k : Key) : Stay c.Out Any (returnIfBanished e k) :=
  .bind .get fun _ _ => .ite (.comeBack e k) (.pure trivial)

theorem Stay.addTopLevel (e : Env) (k : Key) : Stay c.Out Any (addTopLevel e k) := by
  refine .recover (.bind .get fun s hs => .bind (.errIf _) fun _ hn => .bunch (.bind (.put fun hk => ?_) fun _ _ => .pure trivial))
  have := hs.store
  rw [← hk, infoOf_of_not_has hn] at this
  exact this

/-- What a step must not do. -/
def Terms.ok (c : Terms) : Op → Prop
  | .world n _ _ _ => n = c.n
  | .times k _ _ _ x _ => k = c.j → c.p x
  | .banished k _ => k = c.j → c.p none
  | .request k x => (k = c.j → c.p x) ∧ ∀ s t, (Schedule.Req.schedule (c.n + c.y) timeoutHook [k]).exec? s = some t → c.q s → c.q t
  | .resolve _ k _ => k = c.j → c.p none
  | .timeout k => k = c.j → c.p none
  | _ => True

theorem step_stay (e : Env) (op : Op) (s : State) (hs : c.Out s) (h : c.ok op) : c.Out (step e op s) := by
  cases op with
  | top k => exact (Stay.addTopLevel e k).tx hs
  | child p i => exact (Stay.appendChild e p i _ _).tx hs
  | banished k f =>
    refine ⟨hs.now, hs.day, hs.sched, ?_⟩
    show c.p (infoOf (s.store.set k _) c.j).transition
    rw [infoOf_set]
    split
    · rename_i hk; exact h hk.symm
    · exact hs.store
  | times k a b d x n =>
    refine ⟨hs.now, hs.day, hs.sched, ?_⟩
    show c.p (infoOf (s.store.set k _) c.j).transition
    rw [infoOf_set]
    split
    · rename_i hk; exact h hk.symm
    · exact hs.store
  | activate k => exact (Stay.setActive e k _ _).tx hs
  | register i p a =>
    refine Stay.tx (P := c.Out) (Q := Any) (m := register e i p a) ?_ hs
    exact .bind (.appendChild e p i _ _) fun _ _ => .bind .get fun _ _ => .bind (.requestOut fun _ _ he => c.book (by decide) he) fun _ _ =>
      .ite (.setActive e i _ _) (.pure trivial)
  | comeBack k => exact (Stay.returnIfBanished e k).tx hs
  | subscribe k => exact Stay.tx (P := c.Out) (Q := Any) (m := subscribe e k) (.bind (.returnIfBanished e k) fun _ _ => .setActive e k _ _) hs
  | expire k => exact ((Stay.setActive e k _ _) s hs).1
  | balance a p => exact ((Stay.setPurse e a p) s hs).1
  | request k d => exact (Stay.requestTransition e k d h.1 h.2).tx hs
  | resolve g k b => exact (Stay.resolveTransition e g k b h).tx hs
  | downgrade k => exact ((Stay.performDowngrade e k) s hs).1
  | compression k =>
    have : Stay c.Out Any (performCompression e k) := by
      unfold performCompression
      exact .bind .get fun _ _ => .ite (.pure trivial) (.compress e k)
    exact (this s hs).1
  | timeout k => exact ((Stay.cancelTransition k h) s hs).1
  | banish k => exact ((Stay.banish e k) s hs).1
  | world n d p i => exact ⟨h, hs.day, hs.sched, hs.store⟩

end Verif.Referral
