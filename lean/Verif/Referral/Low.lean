import Verif.Referral.Structure

/-! No status above 9 is ever stored. -/
namespace Verif.Referral

def LowSt (st : KV Nat Info) : Prop := ∀ a, (infoOf st a).status ≤ 9

structure Low (s : State) : Prop where
  store : LowSt s.store
  work : LowSt s.work

theorem LowSt.set {st : KV Nat Info} (h : LowSt st) {k : Key} {v : Info} (hv : v.status ≤ 9) : LowSt (st.set k v) := by
  intro a
  rw [infoOf_set]
  split
  · exact hv
  · exact h a

/-- The action stores no high status, and its result has the property `Q`. -/
def Keeps {α : Type} (Q : α → Prop) (m : Act α) : Prop := ∀ s, Low s → Low (m s).2 ∧ ∀ a, (m s).1 = .ok a → Q a

abbrev Any {α : Type} : α → Prop := fun _ => True
abbrev LowI (v : Info) : Prop := v.status ≤ 9

theorem Keeps.bind {α β : Type} {Q : α → Prop} {R : β → Prop} {m : Act α} {f : α → Act β} (hm : Keeps Q m) (hf : ∀ a, Q a → Keeps R (f a)) :
    Keeps R (m >>= f) := by
  intro s hs
  obtain ⟨h1, h2⟩ := hm s hs
  rw [M.bind_apply]
  rcases hms : m s with ⟨r, t⟩
  rw [hms] at h1 h2
  cases r with
  | ok a => exact hf a (h2 a rfl) t h1
  | err => exact ⟨h1, by intro a h; cases h⟩
  | panic => exact ⟨h1, by intro a h; cases h⟩

theorem Keeps.pure {α : Type} {Q : α → Prop} {a : α} (h : Q a) : Keeps Q (Pure.pure a : Act α) :=
  fun _ hs => ⟨hs, by intro b hb; cases hb; exact h⟩
theorem Keeps.err {α : Type} {Q : α → Prop} : Keeps Q (M.err : Act α) := fun _ hs => ⟨hs, by intro b hb; cases hb⟩
theorem Keeps.panic {α : Type} {Q : α → Prop} : Keeps Q (M.panic : Act α) := fun _ hs => ⟨hs, by intro b hb; cases hb⟩
theorem Keeps.get : Keeps Low (M.get : Act State) := fun s hs => ⟨hs, by intro b hb; cases hb; exact hs⟩
theorem Keeps.errIf (c : Bool) : Keeps Any (M.errIf c : Act Unit) := fun s hs => ⟨by cases c <;> exact hs, fun _ _ => trivial⟩
theorem Keeps.panicIf (c : Bool) : Keeps Any (M.panicIf c : Act Unit) := fun s hs => ⟨by cases c <;> exact hs, fun _ _ => trivial⟩
theorem Keeps.orPanic {α : Type} {Q : α → Prop} {o : Option α} (h : ∀ a, o = some a → Q a) : Keeps Q (M.orPanic o : Act α) := fun s hs => by
  cases o with
  | none => exact ⟨hs, by intro b hb; cases hb⟩
  | some a => exact ⟨hs, by intro b hb; cases hb; exact h a rfl⟩
theorem Keeps.modify {f : State → State} (h : ∀ s, Low s → Low (f s)) : Keeps Any (M.modify f) := fun s hs => ⟨h s hs, fun _ _ => trivial⟩
theorem Keeps.ite {α : Type} {Q : α → Prop} {c : Prop} [Decidable c] {a b : Act α} (ha : Keeps Q a) (hb : Keeps Q b) :
    Keeps Q (if c then a else b) := by split <;> assumption
theorem Keeps.weaken {α : Type} {Q R : α → Prop} {m : Act α} (h : Keeps Q m) (hr : ∀ a, Q a → R a) : Keeps R m :=
  fun s hs => ⟨(h s hs).1, fun a ha => hr a ((h s hs).2 a ha)⟩

theorem Keeps.recover {α : Type} {Q : α → Prop} {m : Act α} (h : Keeps Q m) : Keeps Q (recover m) := by
  intro s hs
  have := h s hs
  unfold Referral.recover
  rcases hm : m s with ⟨r, t⟩
  rw [hm] at this
  cases r with
  | ok a => exact this
  | err => exact this
  | panic => exact ⟨this.1, by intro a h; cases h⟩

theorem Keeps.must {α : Type} {Q : α → Prop} {m : Act α} (h : Keeps Q m) : Keeps Q (must m) := by
  intro s hs
  have := h s hs
  unfold Referral.must
  rcases hm : m s with ⟨r, t⟩
  rw [hm] at this
  cases r with
  | ok a => exact this
  | panic => exact this
  | err => exact ⟨this.1, by intro a h; cases h⟩

theorem Keeps.still {α : Type} {m : Act α} (h : Still m) : Keeps Any m := fun s hs => by
  have q := h s
  exact ⟨⟨by rw [q.store]; exact hs.store, by rw [q.work]; exact hs.work⟩, fun _ _ => trivial⟩

theorem Keeps.forEach {β : Type} {l : List β} {f : β → Act Unit} (h : ∀ b, Keeps Any (f b)) : Keeps Any (M.forEach l f) := by
  induction l with
  | nil => exact .pure trivial
  | cons b l ih => rw [M.forEach_cons]; exact .bind (h b) fun _ _ => ih

theorem Keeps.setStatus {v : Info} {x : Nat} (hx : x ≤ 9) (k : Key) : Keeps LowI (setStatus v x k) := by
  intro s hs
  refine ⟨((Keeps.still (Still.setStatus v x k)) s hs).1, ?_⟩
  intro a ha
  unfold Referral.setStatus at ha
  rw [M.bind_ok (M.get_apply s)] at ha
  split at ha
  · rename_i h; cases ha; show v.status ≤ 9; rw [h]; exact hx
  · cases ha; exact hx

theorem highest_low (st : KV Nat Info) (v : Info) : ∀ (n cur x : Nat), cur ≤ 9 → highest st v n cur = some x → x ≤ 9 := by
  intro n
  induction n with
  | zero => intro cur x h hx; unfold highest at hx; injection hx with hx; omega
  | succ n ih =>
    intro cur x h hx
    unfold highest at hx
    split at hx
    · injection hx with hx; omega
    · simp only [Option.bind_eq_bind, Option.bind_eq_some_iff] at hx
      obtain ⟨ok, -, hx⟩ := hx
      split at hx
      · refine ih _ _ ?_ hx
        split <;> omega
      · injection hx with hx; omega

theorem Keeps.checkStatus {k : Key} {v : Info} (hv : v.status ≤ 9) : Keeps LowI (checkStatus k v) := by
  unfold Referral.checkStatus
  refine .bind (Q := LowI) ?_ fun v hv => .bind .get fun s _ => .bind (.orPanic fun _ _ => trivial) fun b _ => ?_
  · refine .ite (.bind (.setStatus (by omega) k) fun w hw => .bind (.still (.addCall _ _)) fun _ _ => .pure hw) (.pure hv)
  · refine .ite (.bind (Q := fun x => x ≤ 9) (.orPanic fun x hx => highest_low _ _ _ _ _ hv hx) fun n hn => ?_) (.ite ?_ (.pure hv))
    · exact .ite (.bind (.setStatus hn k) fun w hw => .bind (.still (.addCall _ _)) fun _ _ => .pure hw) (.pure hv)
    · exact .bind (.still (.request _)) fun _ _ => .pure hv

theorem Keeps.put {k : Key} {v : Info} (hv : v.status ≤ 9) : Keeps Any (put k v) :=
  .modify fun _ hs => ⟨hs.store, hs.work.set hv⟩

theorem Keeps.update {α : Type} {Q : α → Prop} {k : Key} {check : Bool} {f : Info → Act (Info × α)}
    (hf : ∀ v, v.status ≤ 9 → Keeps (fun r : Info × α => r.1.status ≤ 9 ∧ Q r.2) (f v)) : Keeps Q (update k check f) := by
  unfold Referral.update
  refine .recover (.bind .get fun s hs => .bind (hf _ (hs.work k)) fun r hr => .bind (Q := LowI) ?_ fun v hv => .bind (.put hv) fun _ _ => .pure hr.2)
  exact .ite (.checkStatus hr.1) (.pure hr.1)

theorem Keeps.commit (e : Env) : Keeps Any (commit e) :=
  .bind (.modify fun _ hs => ⟨hs.work, hs.work⟩) fun _ _ => .bind .get fun _ _ => .errIf _

theorem Keeps.bunch {e : Env} {m : Act Bool} (hm : Keeps Any m) : Keeps Any (bunch e m) :=
  .bind (.modify fun _ hs => ⟨hs.store, hs.store⟩) fun _ _ => .bind hm fun _ _ => .ite (.commit e) (.pure trivial)

theorem Keeps.climb {check : Bool} {f : Nat → Key → Info → Act Info} (hf : ∀ l k v, v.status ≤ 9 → Keeps LowI (f l k v)) :
    ∀ (n l : Nat) (k : Option Key), Keeps Any (climb check f n l k) := by
  intro n
  induction n with
  | zero => intro l k; exact .pure trivial
  | succ n ih =>
    intro l k
    cases k with
    | none => exact .pure trivial
    | some k =>
      unfold Referral.climb
      exact .bind (Q := Any) (.update fun v hv => .bind (hf l k v hv) fun w hw => .pure ⟨hw, trivial⟩) fun next _ => ih _ _

theorem Keeps.appendChild (e : Env) (p c : Key) (a b : Bool) : Keeps Any (appendChild e p c a b) := by
  unfold Referral.appendChild Referral.appendBody
  refine .bind .get fun _ _ => .bind (.errIf _) fun _ _ => .bunch (.bind .get fun s _ => .bind (.put ?_) fun _ _ =>
    .bind (Q := Any) (.update fun v hv => .bind (.still (.addCall _ _)) fun _ _ => .pure ⟨hv, trivial⟩) fun r _ => .bind (.errIf _) fun _ _ =>
      .bind (.climb (fun l k v hv => .bind (.still (.addCall _ _)) fun _ _ => .pure (by exact hv)) _ _ _) fun _ _ => .pure trivial)
  split <;> exact (by decide : (1 : Nat) ≤ 9)

theorem Keeps.compress (e : Env) (k : Key) : Keeps Any (compress e k) := by
  refine .bunch ?_
  unfold compressBody
  refine .bind (Q := Any) (.update fun v hv => ?_) fun old _ => .bind (.forEach fun c => .update fun v hv => .pure ⟨hv, trivial⟩) fun _ _ =>
    .bind (.climb (fun l k v hv => .bind (.still (.addCall _ _)) fun _ _ => .pure ?_) _ _ _) fun _ _ => .pure trivial
  · unfold compressSelf
    refine .bind (.errIf _) fun _ _ => .bind (.still (.addCall _ _)) fun _ _ => .bind (.setStatus (by decide) k) fun w hw =>
      .bind (.still (.addCall _ _)) fun _ _ => .bind (.orPanic fun _ _ => trivial) fun d _ => .bind .get fun s _ =>
      .bind (Q := LowI) (.ite ?_ (.pure hw)) fun w hw => .pure ⟨hw, trivial⟩
    exact .bind .get fun _ _ => .bind (.still (.request _)) fun _ _ => .pure hw
  · show (if l = 1 then _ else _ : Info).status ≤ 9
    split <;> exact hv

theorem Keeps.attach (k : Key) (c d : Int) (p : Option Key) : Keeps Any (attach k c d p) := by
  cases p with
  | none => exact .pure trivial
  | some p =>
    exact .bind (Q := Any) (.update fun v hv => .pure ⟨hv, trivial⟩) fun next _ => .ite (.pure trivial) (.climb (fun l k v hv => .pure (by exact hv)) _ _ _)

theorem Keeps.detach (k : Key) (c d : Int) (p : Option Key) : Keeps Any (detach k c d p) := by
  cases p with
  | none => exact .pure trivial
  | some p =>
    exact .bind (Q := Any) (.update fun v hv => .pure ⟨hv, trivial⟩) fun next _ => .ite (.pure trivial) (.climb (fun l k v hv => .pure (by exact hv)) _ _ _)

theorem Keeps.delegationChanged {k : Key} {v : Info} (hv : v.status ≤ 9) (d : Int) : Keeps LowI (delegationChanged k v d) := by
  unfold Referral.delegationChanged
  refine .bind .get fun s _ => .ite (.pure hv) (.bind (.orPanic fun _ _ => trivial) fun d _ => .ite (.ite ?_ (.pure hv)) ?_)
  · exact .bind .get fun _ _ => .bind (.still (.request _)) fun _ _ => .pure hv
  · unfold reviveDelegator
    refine .bind (Q := LowI) ?_ fun v hv => .ite ?_ (.pure hv)
    · cases v.banishmentAt with
      | none => exact .pure hv
      | some t => exact .bind (.still (.request _)) fun _ _ => .pure hv
    · exact .bind .get fun _ _ => .bind (.orPanic fun _ _ => trivial) fun p _ => .bind (.attach _ _ _ _) fun _ _ => .pure (by decide : (1 : Nat) ≤ 9)

theorem Keeps.ownBalance {k : Key} {v : Info} (hv : v.status ≤ 9) : Keeps (fun r : Info × (Info × Int × Int) => r.1.status ≤ 9) (ownBalance k v) := by
  unfold Referral.ownBalance
  exact .bind .get fun s _ => .bind (Q := LowI) (.ite (.pure hv) (.bind (.still (.addCall _ _)) fun _ _ => .delegationChanged hv _)) fun w hw =>
    .pure hw

theorem Keeps.onBalanceChanged (e : Env) (k : Key) : Keeps Any (onBalanceChanged e k) := by
  refine .bunch ?_
  unfold balanceBody
  refine .bind .get fun s _ => .ite (.pure trivial) (.bind (Q := Any) (.update fun v hv => ?_) fun r _ => .bind (.ite (.pure trivial)
    (.climb (fun l a v hv => .bind (Q := Any) (.ite (.pure trivial) (.still (.addCall _ _))) fun _ _ => .pure (by exact hv)) _ _ _)) fun _ _ => .pure trivial)
  exact (Keeps.ownBalance hv).weaken fun r hr => ⟨hr, trivial⟩

theorem Keeps.comeBack (e : Env) (k : Key) : Keeps Any (comeBack e k) := by
  refine .bunch ?_
  unfold comeBackBody
  exact .bind (Q := Any) (.update fun v hv => .bind .get fun _ _ => .bind (.orPanic fun _ _ => trivial) fun p _ =>
    .pure ⟨(by decide : (1 : Nat) ≤ 9), trivial⟩) fun r _ => .bind (.attach _ _ _ _) fun _ _ => .pure trivial

theorem Keeps.setActive (e : Env) (k : Key) (value check : Bool) : Keeps Any (setActive e k value check) := by
  refine .bunch ?_
  unfold activeBody
  refine .bind .get fun s _ => .ite (.pure trivial) (.bind (Q := Any) (.update fun v hv => ?_) fun parent _ =>
    .bind (.climb (fun l a v hv => .pure ?_) _ _ _) fun _ _ => .bind (.ite (.still (.request _)) (.pure trivial)) fun _ _ => .pure trivial)
  · unfold activateSelf
    refine .bind .get fun s _ => .bind (Q := LowI) ?_ fun w hw => .pure ⟨hw, trivial⟩
    cases v.banishmentAt with
    | none => exact .pure hv
    | some t => exact .ite (.bind (.still (.request _)) fun _ _ => .pure hv) (.pure hv)
  · show (if l = 1 then _ else _ : Info).status ≤ 9
    split <;> exact hv

theorem Keeps.setPurse (e : Env) (a : Addr) (p : Purse) : Keeps Any (setPurse e a p) :=
  .bind (.modify fun _ hs => ⟨hs.store, hs.work⟩) fun _ _ => .onBalanceChanged e _

theorem Keeps.pay (e : Env) (a : Addr) (x : Int) : Keeps Any (pay e a x) :=
  .bind .get fun _ _ => .bind (.errIf _) fun _ _ => .bind (.setPurse _ _ _) fun _ _ => .bind .get fun _ _ => .setPurse _ _ _

theorem Keeps.setInfo {k : Key} {v : Info} (hv : v.status ≤ 9) : Keeps Any (setInfo k v) :=
  .modify fun _ hs => ⟨hs.store.set hv, hs.work⟩

theorem Keeps.validateTransition (k : Key) (x : Option Key) (b : Bool) : Keeps Any (validateTransition k x b) := by
  unfold Referral.validateTransition
  refine .bind .get fun _ _ => ?_
  cases x with
  | none => exact .err
  | some p =>
    exact .bind (.errIf _) fun _ _ => .bind (.errIf _) fun _ _ => .bind (.errIf _) fun _ _ => .bind (.errIf _) fun _ _ =>
      .bind (.orPanic fun _ _ => trivial) fun _ _ => .errIf _

theorem Keeps.requestTransition (e : Env) (k : Key) (x : Option Key) : Keeps Any (requestTransition e k x) :=
  .bind (.validateTransition _ _ _) fun _ _ => .bind .get fun s _ => .bind (.ite (.pay _ _ _) (.pure trivial)) fun _ _ =>
    .bind .get fun s hs => .bind (.setInfo (hs.store k)) fun _ _ => .still (.request _)

theorem Keeps.cancelTransition (k : Key) : Keeps Any (cancelTransition k) := .bind .get fun s hs => .setInfo (hs.store k)

theorem Keeps.moveTotals (x : What → Nat → Int) : ∀ (n l : Nat) (a b : Option Key), Keeps Any (moveTotals x n l a b) := by
  intro n
  induction n with
  | zero => intros; exact .pure trivial
  | succ n ih =>
    intro l a b
    have one : ∀ (sign : Int) (o : Option Key), Keeps Any (match o with
      | none => (Pure.pure none : Act (Option Key))
      | some a => Referral.update a true (fun v => Pure.pure (v.addTree sign x l, v.referrer))) := by
      intro sign o
      cases o with
      | none => exact .pure trivial
      | some a => exact .update fun v hv => .pure ⟨hv, trivial⟩
    unfold Referral.moveTotals
    exact .ite (.pure trivial) (.bind (one _ _) fun _ _ => .bind (one _ _) fun _ _ => ih _ _ _)

theorem Keeps.affirmTransition (e : Env) (k : Key) : Keeps Any (affirmTransition e k) := by
  unfold Referral.affirmTransition
  refine .bind .get fun s hs => .bind (.validateTransition _ _ _) fun _ _ => .bind (.setInfo (hs.store k)) fun _ _ => ?_
  split
  · refine .must (.bunch ?_)
    unfold moveBody leave join
    exact .bind (Q := Any) (.update fun v hv => .bind (.panicIf _) fun _ _ => .pure ⟨hv, trivial⟩) fun _ _ =>
      .bind (Q := Any) (.update fun v hv => .pure ⟨hv, trivial⟩) fun _ _ => .bind (.moveTotals _ _ _ _ _) fun _ _ => .pure trivial
  · exact .panic

theorem Keeps.resolveTransition (e : Env) (g k : Key) (b : Bool) : Keeps Any (resolveTransition e g k b) :=
  .bind .get fun _ _ => .bind (.errIf _) fun _ _ => .ite (.affirmTransition e k) (.cancelTransition k)

theorem Keeps.banish (e : Env) (k : Key) : Keeps Any (banish e k) := by
  refine .bind (.bunch ?_) fun _ _ => .errIf _
  unfold banishBody banishSelf
  exact .bind (Q := Any) (.update fun v hv => .bind .get fun _ _ => .bind (.errIf _) fun _ _ => .bind (.errIf _) fun _ _ =>
    .bind (.orPanic fun _ _ => trivial) fun _ _ => .bind (.errIf _) fun _ _ => .pure ⟨(by decide : (0 : Nat) ≤ 9), trivial⟩) fun v _ =>
    .bind (.errIf _) fun _ _ => .bind (.detach _ _ _ _) fun _ _ => .pure trivial

theorem Keeps.performDowngrade (e : Env) (k : Key) : Keeps Any (performDowngrade e k) := by
  refine .bunch ?_
  unfold downgradeBody downgradeSelf
  refine .bind (Q := Any) (.update fun v hv => .bind .get fun s _ => .ite (.pure ⟨hv, trivial⟩) (.ite .panic (.bind (.setStatus ?_ k) fun w hw => .pure ⟨hw, trivial⟩)))
    fun _ _ => ?_
  · split <;> omega
  · first
      | exact .pure trivial
      | exact .bind (.still (.addCall _ _)) fun _ _ => .pure trivial

theorem Keeps.performCompression (e : Env) (k : Key) : Keeps Any (performCompression e k) := by
  unfold Referral.performCompression
  exact .bind .get fun _ _ => .ite (.pure trivial) (.compress e k)

theorem Keeps.returnIfBanished (e : Env) (k : Key) : Keeps Any (returnIfBanished e k) :=
  .bind .get fun _ _ => .ite (.comeBack e k) (.pure trivial)

theorem Keeps.addTopLevel (e : Env) (k : Key) : Keeps Any (addTopLevel e k) :=
  .recover (.bind .get fun _ _ => .bind (.errIf _) fun _ _ => .bunch (.bind (.put (by decide : (1 : Nat) ≤ 9)) fun _ _ => .pure trivial))

theorem Keeps.tx {α : Type} {m : Act α} (h : Keeps Any m) {s : State} (hs : Low s) : Low (M.tx m s) := by
  rcases M.tx_cases m s with ⟨x, hx⟩ | ⟨-, hx⟩
  · have := (h s hs).1
    rw [hx] at this; exact this
  · rw [hx]; exact hs

/-- The genesis file has no status above 9. -/
def lowOk : Op → State → Prop
  | .times _ _ _ _ _ n, _ => n ≤ 9
  | _, _ => True

theorem step_low (e : Env) (op : Op) (s : State) (hs : Low s) (h : lowOk op s) : Low (step e op s) := by
  cases op with
  | top k => exact (Keeps.addTopLevel e k).tx hs
  | child p c => exact (Keeps.appendChild e p c _ _).tx hs
  | banished k f => exact Keeps.tx (m := importBanished k (some f)) (.modify fun _ hs => ⟨hs.store.set (by exact (by decide : (0 : Nat) ≤ 9)), hs.work⟩) hs
  | times k c b d x n => exact Keeps.tx (m := importTimes k c b d x n) (.modify fun _ hs => ⟨hs.store.set (by exact h), hs.work⟩) hs
  | activate k => exact (Keeps.setActive e k _ _).tx hs
  | register c p a =>
    exact Keeps.tx (.bind (.appendChild e p c _ _) fun _ _ => .bind .get fun _ _ => .bind (.still (.request _)) fun _ _ =>
      .ite (.setActive e c _ _) (.pure trivial)) hs
  | comeBack k => exact (Keeps.returnIfBanished e k).tx hs
  | subscribe k => exact Keeps.tx (.bind (.returnIfBanished e k) fun _ _ => .setActive e k _ _) hs
  | expire k => exact ((Keeps.setActive e k _ _) s hs).1
  | balance a p => exact ((Keeps.setPurse e a p) s hs).1
  | request k d => exact (Keeps.requestTransition e k d).tx hs
  | resolve g k b => exact (Keeps.resolveTransition e g k b).tx hs
  | downgrade k => exact ((Keeps.performDowngrade e k) s hs).1
  | compression k => exact ((Keeps.performCompression e k) s hs).1
  | timeout k => exact ((Keeps.cancelTransition k) s hs).1
  | banish k => exact ((Keeps.banish e k) s hs).1
  | world n d p c => exact ⟨hs.store, hs.work⟩

end Verif.Referral
