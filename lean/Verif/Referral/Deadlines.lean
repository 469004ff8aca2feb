import Verif.Referral.Earned3
import Verif.Schedule.Lemmas

/-! Property C65: the dates of downgrade, compression and banishment in the records are backed by tasks of the scheduler. -/
namespace Verif.Referral
open Relation
open Verif.Schedule (Pending)

/-! ### Specification -/

/-- What can be in store for an account. -/
inductive Fate where
  | downgrade | compression | banishment
deriving DecidableEq

/-- The numbers of the handlers, /repo/x/referral/keeper/hooks.go:19-22 -/
def Fate.hook : Fate → Nat
  | .downgrade => 6
  | .compression => 7
  | .banishment => 9

/-- The date in the record; an account without referrer is never compressed. -/
def Info.date (v : Info) : Fate → Option Int
  | .downgrade => v.downgradeAt
  | .compression => if v.referrer.isSome then v.compressionAt else none
  | .banishment => v.banishmentAt

/-- The scheduler will call the handler for the account at this time. -/
def Booked (sch : Schedule.State) (t : Int) (hook : Nat) (k : Key) : Prop :=
  ∃ x, Pending sch x ∧ x.time = t ∧ x.handler = hook ∧ x.data = [k]

/-- Every date in the future, except those in `E`, is backed by a task. -/
def Backed (E : Fate → Key → Int → Prop) (now : Int) (st : KV Nat Info) (sch : Schedule.State) : Prop :=
  ∀ κ k t, ¬ E κ k t → (infoOf st k).date κ = some t → now < t → Booked sch t κ.hook k

/-! ### Tasks are only added -/

def Grow (s t : State) : Prop := t.now = s.now ∧ ∀ d h k, Booked s.sched d h k → Booked t.sched d h k

theorem Grow.refl (s : State) : Grow s s := ⟨rfl, fun _ _ _ h => h⟩
theorem Grow.trans {s t u : State} (h : Grow s t) (h' : Grow t u) : Grow s u := ⟨h'.1.trans h.1, fun d x k hb => h'.2 d x k (h.2 d x k hb)⟩
theorem Grow.same {s t : State} (h : t.sched = s.sched) (h' : t.now = s.now) : Grow s t := ⟨h', fun _ _ _ hb => by rw [h]; exact hb⟩

def Books {α : Type} (m : Act α) : Prop := ∀ s, Grow s (m s).2

theorem Books.of {α : Type} {m : Act α} {s t : State} {r : Res α} (h : Books m) (e : m s = (r, t)) : Grow s t := by
  have := h s
  rw [e] at this; exact this

theorem Books.bind {α β : Type} {m : Act α} {f : α → Act β} (hm : Books m) (hf : ∀ a, Books (f a)) : Books (m >>= f) := by
  intro s
  have h := hm s
  rw [M.bind_apply]
  rcases hms : m s with ⟨r, t⟩
  rw [hms] at h
  cases r with
  | ok a => exact h.trans (hf a t)
  | err => exact h
  | panic => exact h

theorem Books.pure {α : Type} (a : α) : Books (Pure.pure a : Act α) := fun s => .refl s
theorem Books.panic {α : Type} : Books (M.panic : Act α) := fun s => .refl s
theorem Books.get : Books (M.get : Act State) := fun s => .refl s
theorem Books.errIf (c : Bool) : Books (M.errIf c : Act Unit) := fun s => by cases c <;> exact .refl s
theorem Books.panicIf (c : Bool) : Books (M.panicIf c : Act Unit) := fun s => by cases c <;> exact .refl s
theorem Books.orPanic {α : Type} (o : Option α) : Books (M.orPanic o : Act α) := fun s => by cases o <;> exact .refl s
theorem Books.ite {α : Type} {c : Prop} [Decidable c] {a b : Act α} (ha : Books a) (hb : Books b) : Books (if c then a else b) := by
  split <;> assumption
theorem Books.addCall (e : Event) (k : Key) : Books (addCall e k) := fun _ => .same rfl rfl
theorem Books.put (k : Key) (v : Info) : Books (put k v) := fun _ => .same rfl rfl

theorem Books.recover {α : Type} {m : Act α} (h : Books m) : Books (recover m) := by
  intro s
  have := h s
  unfold Referral.recover
  rcases hm : m s with ⟨r, t⟩
  rw [hm] at this
  cases r <;> exact this

theorem Books.setStatus (v : Info) (x : Nat) (k : Key) : Books (setStatus v x k) := by
  unfold Referral.setStatus
  intro s
  rw [M.bind_ok (M.get_apply s)]
  split
  · exact .refl s
  · exact .same rfl rfl

theorem Books.schedule (d : Int) (hook : Nat) (data : List Nat) : Books (request (.schedule d hook data)) := by
  unfold request
  intro s
  rw [M.bind_ok (M.get_apply s)]
  cases h : (Schedule.Req.schedule d hook data).exec? s.sched with
  | none =>
    rw [M.bind_panic (M.orPanic_none s)]
    exact .refl s
  | some u =>
    rw [M.bind_ok (M.orPanic_some u s)]
    refine ⟨rfl, ?_⟩
    rintro d h' k ⟨x, hx, hr⟩
    exact ⟨x, Schedule.exec?_pending h hx trivial, hr⟩

theorem Books.scheduleBanishment (k : Key) (v : Info) : Books (scheduleBanishment k v) :=
  .bind .get fun _ => .bind (.schedule _ _ _) fun _ => .pure _

theorem Books.checkStatus (k : Key) (v : Info) : Books (checkStatus k v) := by
  unfold Referral.checkStatus
  refine .bind ?_ fun w => .bind .get fun s => .bind (.orPanic _) fun b => ?_
  · split
    · exact .bind (.setStatus _ _ _) fun _ => .bind (.addCall _ _) fun _ => .pure _
    · exact .pure _
  · refine .ite ?_ ?_
    · refine .bind (.orPanic _) fun n => ?_
      exact .ite (.bind (.setStatus _ _ _) fun _ => .bind (.addCall _ _) fun _ => .pure _) (.pure _)
    · exact .ite (.bind (.schedule _ _ _) fun _ => .pure _) (.pure _)

theorem Books.update {α : Type} {k : Key} {check : Bool} {f : Info → Act (Info × α)} (hf : ∀ v, Books (f v)) : Books (update k check f) := by
  unfold Referral.update
  refine .recover (.bind .get fun s => .bind (hf _) fun r => .bind ?_ fun v => .bind (.put _ _) fun _ => .pure _)
  split
  · exact .checkStatus _ _
  · exact .pure _

theorem Books.climb {check : Bool} {f : Nat → Key → Info → Act Info} (hf : ∀ l k v, Books (f l k v)) :
    ∀ (n l : Nat) (k : Option Key), Books (climb check f n l k) := by
  intro n
  induction n with
  | zero => intro l k; exact .pure _
  | succ n ih =>
    intro l k
    cases k with
    | none => exact .pure _
    | some k =>
      unfold Referral.climb
      exact .bind (.update fun v => .bind (hf l k v) fun w => .pure _) fun next => ih _ _

theorem Books.forEach {β : Type} {l : List β} {f : β → Act Unit} (h : ∀ b, Books (f b)) : Books (M.forEach l f) := by
  induction l with
  | nil => exact .pure _
  | cons b l ih => rw [M.forEach_cons]; exact .bind (h b) fun _ => ih

/-! ### Dates stay backed -/

def State.Dated (s : State) (E : Fate → Key → Int → Prop) : Prop := Backed E s.now s.work s.sched

theorem Backed.mono {E E' : Fate → Key → Int → Prop} {now : Int} {st : KV Nat Info} {sch : Schedule.State} (h : Backed E now st sch)
    (hE : ∀ κ k t, E κ k t → E' κ k t) : Backed E' now st sch := fun κ k t hk => h κ k t fun hc => hk (hE κ k t hc)

theorem State.Dated.grow {s t : State} {E : Fate → Key → Int → Prop} (h : s.Dated E) (hg : Grow s t) (hw : t.work = s.work) : t.Dated E := by
  intro κ k d hE hd hn
  rw [hw] at hd
  rw [hg.1] at hn
  exact hg.2 _ _ _ (h κ k d hE hd hn)

/-- The dates of one record are backed. -/
def RecOk (E : Fate → Key → Int → Prop) (s : State) (k : Key) (v : Info) : Prop :=
  ∀ κ t, ¬ E κ k t → v.date κ = some t → s.now < t → Booked s.sched t κ.hook k

theorem State.Dated.rec {s : State} {E : Fate → Key → Int → Prop} (h : s.Dated E) (k : Key) : RecOk E s k (infoOf s.work k) :=
  fun κ t => h κ k t

theorem RecOk.grow {E : Fate → Key → Int → Prop} {s t : State} {k : Key} {v : Info} (h : RecOk E s k v) (hg : Grow s t) : RecOk E t k v := by
  intro κ d hE hd hn
  rw [hg.1] at hn
  exact hg.2 _ _ _ (h κ d hE hd hn)

/-- Fewer dates -/
theorem RecOk.less {E : Fate → Key → Int → Prop} {s : State} {k : Key} {v w : Info} (h : RecOk E s k v)
    (hw : ∀ κ, w.date κ = v.date κ ∨ w.date κ = none) : RecOk E s k w := by
  intro κ d hE hd hn
  rcases hw κ with e | e
  · exact h κ d hE (by rw [← e]; exact hd) hn
  · rw [e] at hd; cases hd

theorem booked_of_schedule {d : Int} {hook : Nat} {k : Key} {s t : State} (h : request (.schedule d hook [k]) s = (.ok (), t)) :
    Booked t.sched d hook k := schedule_pending h

theorem checkStatus_rec {E : Fate → Key → Int → Prop} {k : Key} {v n : Info} {s t : State} (h : checkStatus k v s = (.ok n, t))
    (hv : RecOk E s k v) : RecOk E t k n := by
  have hc := checkStatus_core h
  have hg := (Books.checkStatus k v).of h
  have key : n.downgradeAt = none ∨ n.downgradeAt = v.downgradeAt ∨ ∃ d, n.downgradeAt = some d ∧ Booked t.sched d 6 k := by
    unfold checkStatus at h
    rw [M.bind_ok_iff] at h
    obtain ⟨v1, s1, h1, h⟩ := h
    have e1 : v1.downgradeAt = v.downgradeAt := by
      split at h1
      · rw [M.bind_ok_iff] at h1
        obtain ⟨w, s2, h2, h1⟩ := h1
        rw [M.bind_ok_iff] at h1
        obtain ⟨_, s3, h3, h1⟩ := h1
        simp at h1
        rw [← h1.1, setStatus_result h2]
      · simp at h1
        rw [h1.1]
    rw [M.get_bind_ok, M.orPanic_bind_ok] at h
    obtain ⟨b, hb, h⟩ := h
    split at h
    · dsimp only at h
      rw [M.orPanic_bind_ok] at h
      obtain ⟨r, hr, h⟩ := h
      left
      split at h
      · rw [M.bind_ok_iff] at h
        obtain ⟨w, s2, h2, h⟩ := h
        rw [M.bind_ok_iff] at h
        obtain ⟨_, s3, h3, h⟩ := h
        simp at h
        rw [← h.1, setStatus_result h2]
      · simp at h
        rw [← h.1]
    · right
      split at h
      · right
        rw [M.bind_ok_iff] at h
        obtain ⟨_, s2, h2, h⟩ := h
        simp at h
        rw [← h.1, ← h.2]
        exact ⟨_, rfl, booked_of_schedule h2⟩
      · left
        simp at h
        rw [← h.1, e1]
  intro κ d hE hd hn
  rw [hg.1] at hn
  have c1 : n.referrer = v.referrer := (congrArg Info.referrer hc : (core n).referrer = (core v).referrer)
  have c2 : n.compressionAt = v.compressionAt := (congrArg Info.compressionAt hc : (core n).compressionAt = (core v).compressionAt)
  have c3 : n.banishmentAt = v.banishmentAt := (congrArg Info.banishmentAt hc : (core n).banishmentAt = (core v).banishmentAt)
  cases κ with
  | downgrade =>
    have hd : n.downgradeAt = some d := hd
    rcases key with e | e | ⟨d', e, hb⟩
    · rw [e] at hd; cases hd
    · exact hg.2 _ _ _ (hv .downgrade d hE (e.symm.trans hd) hn)
    · rw [e] at hd; injection hd with hd; rw [← hd]; exact hb
  | compression =>
    refine hg.2 _ _ _ (hv .compression d hE ?_ hn)
    unfold Info.date at hd ⊢
    dsimp only at hd ⊢
    rw [c1, c2] at hd
    exact hd
  | banishment => exact hg.2 _ _ _ (hv .banishment d hE (c3.symm.trans hd) hn)

def KeepAct {α : Type} (E : Fate → Key → Int → Prop) (m : Act α) : Prop := ∀ s a t, m s = (.ok a, t) → s.Dated E → t.Dated E

theorem KeepAct.still {α : Type} {E : Fate → Key → Int → Prop} {m : Act α} (h : Still m) (h' : Books m) : KeepAct E m :=
  fun _ _ _ hm hd => hd.grow (h'.of hm) (h.of hm).work

theorem KeepAct.bind {α β : Type} {E : Fate → Key → Int → Prop} {m : Act α} {f : α → Act β} (hm : KeepAct E m) (hf : ∀ a, KeepAct E (f a)) :
    KeepAct E (m >>= f) := by
  intro s b t h hs
  rw [M.bind_ok_iff] at h
  obtain ⟨a, s1, h1, h2⟩ := h
  exact hf a s1 b t h2 (hm s a s1 h1 hs)

theorem KeepAct.pure {α : Type} {E : Fate → Key → Int → Prop} (a : α) : KeepAct E (Pure.pure a : Act α) := .still (.pure _) (.pure _)

/-- `update`, when the callback keeps the dates of the others and returns a record with backed dates. -/
theorem update_dated {α : Type} {E : Fate → Key → Int → Prop} {k : Key} {check : Bool} {f : Info → Act (Info × α)} {s t : State} {a : α}
    (h : update k check f s = (.ok a, t))
    (hf : ∀ w s1, f (infoOf s.work k) s = (.ok (w, a), s1) → s1.Dated (fun κ j d => E κ j d ∨ j = k) ∧ RecOk E s1 k w) : t.Dated E := by
  unfold update at h
  rw [recover_ok_iff, M.get_bind_ok, M.bind_ok_iff] at h
  obtain ⟨r, s1, h1, h⟩ := h
  rw [M.bind_ok_iff] at h
  obtain ⟨v, s2, h2, h⟩ := h
  rw [M.bind_ok_iff] at h
  obtain ⟨_, s3, h3, h⟩ := h
  simp at h
  obtain ⟨rfl, rfl⟩ := h
  obtain ⟨d1, r1⟩ := hf r.1 s1 h1
  have h4 : s3 = { s2 with work := s2.work.set k v } := by
    unfold put at h3
    simp at h3
    exact h3.symm
  have key : s2.Dated (fun κ j d => E κ j d ∨ j = k) ∧ RecOk E s2 k v := by
    cases check with
    | true =>
      rw [if_pos rfl] at h2
      exact ⟨d1.grow ((Books.checkStatus _ _).of h2) ((Still.checkStatus _ _).of h2).work, checkStatus_rec h2 r1⟩
    | false =>
      rw [if_neg (by simp)] at h2
      simp at h2
      obtain ⟨rfl, rfl⟩ := h2
      exact ⟨d1, r1⟩
  intro κ j d hE hd hn
  rw [h4] at hd hn ⊢
  have hd' : (infoOf (s2.work.set k v) j).date κ = some d := hd
  rw [infoOf_set] at hd'
  by_cases hj : j = k
  · rw [if_pos hj] at hd'
    subst hj
    exact key.2 κ d hE hd' hn
  · rw [if_neg hj] at hd'
    exact key.1 κ j d (fun hc => hc.elim hE hj) hd' hn

theorem KeepAct.update {α : Type} {E : Fate → Key → Int → Prop} {k : Key} {check : Bool} {f : Info → Act (Info × α)} (hs : ∀ v, Still (f v))
    (ha : ∀ v, Books (f v)) (hw : ∀ v s w a s1, f v s = (.ok (w, a), s1) → ∀ κ, w.date κ = v.date κ ∨ w.date κ = none) :
    KeepAct E (update k check f) := by
  intro s a t h hd
  refine update_dated h fun w s1 h1 => ?_
  exact ⟨(hd.grow ((ha _).of h1) ((hs _).of h1).work).mono fun _ _ _ => .inl, ((hd.rec k).grow ((ha _).of h1)).less (hw _ _ _ _ _ h1)⟩

theorem KeepAct.climb {E : Fate → Key → Int → Prop} {check : Bool} {f : Nat → Key → Info → Act Info} (hs : ∀ l k v, Still (f l k v))
    (ha : ∀ l k v, Books (f l k v)) (hw : ∀ l k v s w s1, f l k v s = (.ok w, s1) → ∀ κ, w.date κ = v.date κ) :
    ∀ (n l : Nat) (k : Option Key), KeepAct E (Referral.climb check f n l k) := by
  intro n
  induction n with
  | zero => intro l k; exact .pure _
  | succ n ih =>
    intro l k
    cases k with
    | none => exact .pure _
    | some k =>
      unfold Referral.climb
      refine .bind (.update (fun v => .bind (hs l k v) fun _ => .pure _) (fun v => .bind (ha l k v) fun _ => .pure _) ?_) fun next => ih _ _
      intro v s w a s1 h κ
      rw [M.bind_ok_iff] at h
      obtain ⟨w', s2, h1, h⟩ := h
      simp at h
      rw [← h.1.1]
      exact .inl (hw l k v s w' s2 h1 κ)

theorem KeepAct.pureUpdate {α : Type} {E : Fate → Key → Int → Prop} {k : Key} {check : Bool} {g : Info → Info × α}
    (h : ∀ v κ, (g v).1.date κ = v.date κ) : KeepAct E (Referral.update k check fun v => (Pure.pure (g v) : Act (Info × α))) := by
  refine .update (fun v => .pure _) (fun v => .pure _) ?_
  intro v s w a s1 hh κ
  simp at hh
  have := h v κ
  rw [hh.1] at this
  exact .inl this

theorem date_congr {v w : Info} (h1 : w.referrer = v.referrer) (h2 : w.compressionAt = v.compressionAt) (h3 : w.banishmentAt = v.banishmentAt)
    (h4 : w.downgradeAt = v.downgradeAt) (κ : Fate) : w.date κ = v.date κ := by
  cases κ
  · exact h4
  · unfold Info.date; dsimp only; rw [h1, h2]
  · exact h3

theorem KeepAct.climbMoney {E : Fate → Key → Int → Prop} {c d : Int} (n l : Nat) (k : Option Key) :
    KeepAct E (Referral.climb true (fun l _ v => Pure.pure (v.add (money c d) l)) n l k) := by
  refine .climb (fun _ _ _ => .pure _) (fun _ _ _ => .pure _) ?_ n l k
  intro l k v s w s1 h κ
  simp at h
  rw [← h.1]
  exact date_congr (v := v) (w := v.add (money c d) l) rfl rfl rfl rfl κ

theorem KeepAct.attach {E : Fate → Key → Int → Prop} (k : Key) (c d : Int) (p : Option Key) : KeepAct E (Referral.attach k c d p) := by
  cases p with
  | none => exact .pure _
  | some p =>
    unfold Referral.attach
    refine .bind (.pureUpdate (g := fun v => ({ v.add (money c d) 1 with referrals := v.referrals ++ [k] }, v.referrer))
      fun v κ => date_congr (v := v) (w := { v.add (money c d) 1 with referrals := v.referrals ++ [k] }) rfl rfl rfl rfl κ) fun next => ?_
    split
    · exact .pure _
    · exact .climbMoney _ _ _

theorem KeepAct.detach {E : Fate → Key → Int → Prop} (k : Key) (c d : Int) (p : Option Key) : KeepAct E (Referral.detach k c d p) := by
  cases p with
  | none => exact .pure _
  | some p =>
    unfold Referral.detach
    refine .bind (.pureUpdate (g := fun v => ({ v.add (money (-c) (-d)) 1 with referrals := removeFast v.referrals k }, v.referrer))
      fun v κ => date_congr (v := v) (w := { v.add (money (-c) (-d)) 1 with referrals := removeFast v.referrals k }) rfl rfl rfl rfl κ) fun next => ?_
    split
    · exact .pure _
    · exact .climbMoney _ _ _

theorem Books.attach (k : Key) (c d : Int) (p : Option Key) : Books (Referral.attach k c d p) := by
  cases p with
  | none => exact .pure _
  | some p =>
    unfold Referral.attach
    refine .bind (.update fun _ => .pure _) fun next => ?_
    split
    · exact .pure _
    · exact .climb (fun _ _ _ => .pure _) _ _ _

theorem Books.detach (k : Key) (c d : Int) (p : Option Key) : Books (Referral.detach k c d p) := by
  cases p with
  | none => exact .pure _
  | some p =>
    unfold Referral.detach
    refine .bind (.update fun _ => .pure _) fun next => ?_
    split
    · exact .pure _
    · exact .climb (fun _ _ _ => .pure _) _ _ _

end Verif.Referral
