import Verif.Referral.Low
import Verif.Referral.Retire2
import Verif.Referral.Affirm

/-! The amounts recorded for an account are its balances: the parts of every action (C92). -/
namespace Verif.Referral

/-- Nothing in the record points to an unknown account, and the schedule takes the date of banishment. -/
structure Kin (D : Key → Prop) (v : Info) : Prop where
  referrer : ∀ p, v.referrer = some p → D p
  referrals : ∀ q ∈ v.referrals, D q
  transition : ∀ b, v.transition = some b → D b
  date : ∀ x, v.banishmentAt = some x → Schedule.inRange x = true

/-- The record counts as present. -/
def Alive (v : Info) : Prop := v.banished = true ∨ 1 ≤ v.status

/-- The own amounts are `c` and `d`. -/
def Own (c d : Key → Int) (k : Key) (v : Info) : Prop := v.tot .coins 0 = c k ∧ v.tot .delegated 0 = d k

/-- The accounts `D` are stored, with own amounts `c` and `d` but for the accounts `X`. -/
structure Fit (D : Key → Prop) (c d : Key → Int) (X : Key → Prop) (st : KV Nat Info) : Prop where
  keys : ∀ k, st.has k = true ↔ D k
  kin : ∀ k, D k → Kin D (infoOf st k)
  alive : ∀ k, D k → Alive (infoOf st k)
  own : ∀ k, D k → ¬ X k → Own c d k (infoOf st k)

/-- The bunch updater is in order, and the bank agrees with `c` and `d`. -/
structure At (D : Key → Prop) (c d : Key → Int) (X : Key → Prop) (s : State) : Prop where
  fit : Fit D c d X s.work
  bank : ∀ k, s.balance k = c k ∧ s.delegated k = d k

/-- An action that succeeds leads from `P` to `P'`, with a result in `Q`. -/
def Fix {α : Type} (P P' : State → Prop) (Q : α → Prop) (m : Act α) : Prop := ∀ s a t, P s → m s = (.ok a, t) → P' t ∧ Q a

section
variable {α β : Type} {P P' P'' : State → Prop} {Q : α → Prop} {R : β → Prop}

theorem Fix.seq {m : Act α} {f : α → Act β} (hm : Fix P P' Q m) (hf : ∀ a, Q a → Fix P' P'' R (f a)) : Fix P P'' R (m >>= f) := by
  intro s b t hs h
  rw [M.bind_ok_iff] at h
  obtain ⟨a, s', h1, h2⟩ := h
  obtain ⟨h3, h4⟩ := hm s a s' hs h1
  exact hf a h4 s' b t h3 h2

theorem Fix.bind {m : Act α} {f : α → Act β} (hm : Fix P P Q m) (hf : ∀ a, Q a → Fix P P' R (f a)) : Fix P P' R (m >>= f) := .seq hm hf

theorem Fix.pure {a : α} (h : Q a) : Fix P P Q (Pure.pure a : Act α) := by
  intro s b t hs e
  cases e; exact ⟨hs, h⟩
theorem Fix.err : Fix P P' Q (M.err : Act α) := by intro s b t hs e; cases e
theorem Fix.panic : Fix P P' Q (M.panic : Act α) := by intro s b t hs e; cases e
theorem Fix.get : Fix P P P (M.get : Act State) := by intro s b t hs e; cases e; exact ⟨hs, hs⟩
theorem Fix.errIf {c : Bool} : Fix P P (fun _ => c = false) (M.errIf c : Act Unit) := by
  intro s b t hs e
  rw [M.errIf_ok_iff] at e
  rw [e.2]; exact ⟨hs, e.1⟩
theorem Fix.panicIf {c : Bool} : Fix P P (fun _ => c = false) (M.panicIf c : Act Unit) := by
  intro s b t hs e
  rw [M.panicIf_ok_iff] at e
  rw [e.2]; exact ⟨hs, e.1⟩
theorem Fix.orPanic {o : Option α} (h : ∀ a, o = some a → Q a) : Fix P P Q (M.orPanic o : Act α) := by
  intro s a t hs e
  cases o with
  | none => cases e
  | some b => cases e; exact ⟨hs, h _ rfl⟩
theorem Fix.ite {c : Prop} [Decidable c] {a b : Act α} (ha : c → Fix P P' Q a) (hb : ¬ c → Fix P P' Q b) : Fix P P' Q (if c then a else b) := by
  split
  · exact ha ‹_›
  · exact hb ‹_›
theorem Fix.weaken {Q' : α → Prop} {m : Act α} (h : Fix P P' Q m) (hq : ∀ a, Q a → Q' a) : Fix P P' Q' m :=
  fun s a t hs e => ⟨(h s a t hs e).1, hq a (h s a t hs e).2⟩

theorem Fix.recover {m : Act α} (h : Fix P P' Q m) : Fix P P' Q (recover m) := by
  intro s a t hs e
  unfold Referral.recover at e
  rcases hm : m s with ⟨r, t'⟩
  rw [hm] at e
  cases r with
  | ok b => cases e; exact h s a t hs hm
  | err => cases e
  | panic => cases e

theorem Fix.must {m : Act α} (h : Fix P P' Q m) : Fix P P' Q (must m) := by
  intro s a t hs e
  unfold Referral.must at e
  rcases hm : m s with ⟨r, t'⟩
  rw [hm] at e
  cases r with
  | ok b => cases e; exact h s a t hs hm
  | err => cases e
  | panic => cases e

theorem Fix.forEach {l : List β} {f : β → Act Unit} (h : ∀ b ∈ l, Fix P P Any (f b)) : Fix P P Any (M.forEach l f) := by
  induction l with
  | nil => exact .pure trivial
  | cons b l ih => rw [M.forEach_cons]; exact .bind (h b List.mem_cons_self) fun _ _ => ih fun b hb => h b (List.mem_cons_of_mem _ hb)
end

section
variable {D : Key → Prop} {c d : Key → Int} {X Y : Key → Prop}

theorem At.quiet {s t : State} (hs : At D c d X s) (q : Quiet s t) : At D c d X t :=
  ⟨by rw [q.work]; exact hs.fit, fun k => by
    have := hs.bank k
    rw [q.balance]
    unfold State.delegated at *
    rw [q.purse]; exact this⟩

theorem Fix.still {α : Type} {m : Act α} (h : Still m) : Fix (At D c d X) (At D c d X) Any m := fun _ _ _ hs e => ⟨hs.quiet (h.of e), trivial⟩

theorem Fix.scheduled {t : Int} {h : _} {b : _} : Fix (At D c d X) (At D c d X) (fun _ => Schedule.inRange t = true) (request (.schedule t h b)) := by
  intro s a u hs e
  refine ⟨hs.quiet ((Still.request _).of e), ?_⟩
  unfold Referral.request at e
  rw [M.bind_ok (M.get_apply s), M.bind_ok_iff] at e
  obtain ⟨q, s', h1, -⟩ := e
  rw [M.orPanic_ok_iff] at h1
  have h2 := h1.1
  unfold Schedule.Req.exec? Schedule.schedule? at h2
  cases hr : Schedule.inRange t with
  | true => rfl
  | false => simp [hr] at h2

/-- The fields `checkStatus` leaves alone -/
structure Like (v w : Info) : Prop where
  referrer : w.referrer = v.referrer
  referrals : w.referrals = v.referrals
  transition : w.transition = v.transition
  banishmentAt : w.banishmentAt = v.banishmentAt
  tot : w.tot = v.tot
  banished : w.banished = v.banished

theorem Like.refl (v : Info) : Like v v := ⟨rfl, rfl, rfl, rfl, rfl, rfl⟩
theorem Like.trans {u v w : Info} (h : Like u v) (h' : Like v w) : Like u w :=
  ⟨h'.referrer.trans h.referrer, h'.referrals.trans h.referrals, h'.transition.trans h.transition, h'.banishmentAt.trans h.banishmentAt, h'.tot.trans h.tot, h'.banished.trans h.banished⟩
theorem Like.kin {v w : Info} (h : Like v w) (hv : Kin D v) : Kin D w :=
  ⟨by rw [h.referrer]; exact hv.referrer, by rw [h.referrals]; exact hv.referrals, by rw [h.transition]; exact hv.transition, by rw [h.banishmentAt]; exact hv.date⟩
theorem Like.own {v w : Info} (h : Like v w) {k : Key} (hv : Own c d k v) : Own c d k w := by
  unfold Own; rw [h.tot]; exact hv

theorem Fix.setStatus {v : Info} {x : Nat} (k : Key) : Fix (At D c d X) (At D c d X) (fun w => Like v w ∧ w.status = x) (setStatus v x k) := by
  intro s a t hs e
  refine ⟨hs.quiet ((Still.setStatus v x k).of e), ?_⟩
  unfold Referral.setStatus at e
  rw [M.bind_ok (M.get_apply s)] at e
  split at e
  · rename_i h; cases e; exact ⟨.refl _, h⟩
  · cases e; exact ⟨⟨rfl, rfl, rfl, rfl, rfl, rfl⟩, rfl⟩

theorem highest_ge (st : KV Nat Info) (v : Info) : ∀ (n cur x : Nat), highest st v n cur = some x → cur ≤ x := by
  intro n
  induction n with
  | zero => intro cur x hx; unfold highest at hx; injection hx with hx; omega
  | succ n ih =>
    intro cur x hx
    unfold highest at hx
    split at hx
    · injection hx with hx; omega
    · simp only [Option.bind_eq_bind, Option.bind_eq_some_iff] at hx
      obtain ⟨ok, -, hx⟩ := hx
      split at hx
      · have := ih _ _ hx
        split at this <;> omega
      · injection hx with hx; omega

theorem highest_pos (st : KV Nat Info) (v : Info) (hb : v.banished = false) (cur x : Nat) (hx : highest st v 10 cur = some x) : 1 ≤ x := by
  by_cases h : cur = 0
  · subst h
    unfold highest at hx
    have h1 : meets st 1 v = some true := by unfold meets; simp [hb]
    simp [h1] at hx
    exact highest_ge st v _ _ _ hx
  · have := highest_ge st v _ _ _ hx
    omega

theorem Fix.checkStatus {k : Key} {v : Info} : Fix (At D c d X) (At D c d X) (fun w => Like v w ∧ Alive w) (checkStatus k v) := by
  unfold Referral.checkStatus
  refine .bind (Q := fun w => Like v w) ?_ fun w hw => .bind .get fun s _ => .bind (.orPanic (Q := fun b => meets s.work w.status w = some b) fun _ h => h) fun b hb => ?_
  · exact .ite (fun _ => .bind (.setStatus k) fun w hw => .bind (.still (.addCall _ _)) fun _ _ => .pure hw.1) (fun _ => .pure (.refl _))
  · have hw' : Like v { w with downgradeAt := none } := hw.trans ⟨rfl, rfl, rfl, rfl, rfl, rfl⟩
    have alive : ∀ (n : Nat) (u : Info), Like v u → u.status = n → 1 ≤ n → Alive u := fun n u _ h1 h2 => .inr (by omega)
    refine .ite (fun _ => .bind (.orPanic (Q := fun n => highest s.work { w with downgradeAt := none } 10 w.status = some n) fun _ h => h) fun n hn => ?_) (fun hb' => ?_)
    · have hp : w.banished = false → 1 ≤ n := fun h => highest_pos s.work { w with downgradeAt := none } h w.status n hn
      refine .ite (fun _ => .bind (.setStatus k) fun u hu => .bind (.still (.addCall _ _)) fun _ _ => .pure ⟨hw'.trans hu.1, ?_⟩) (fun hlt => .pure ⟨hw', ?_⟩)
      · cases hbn : w.banished with
        | true => exact .inl (by rw [hu.1.banished]; exact hbn)
        | false => exact .inr (by rw [hu.2]; exact hp hbn)
      · cases hbn : w.banished with
        | true => exact .inl rfl
        | false =>
          refine .inr ?_
          have h1 := hp hbn
          have h2 : ¬ w.status < n := hlt
          show 1 ≤ w.status
          omega
    · have ha : Alive w := by
        refine .inr ?_
        rcases Nat.eq_zero_or_pos w.status with h0 | h0
        · rw [h0] at hb
          unfold meets at hb
          simp at hb
          exact absurd (by simpa using hb) hb'
        · exact h0
      refine .ite (fun _ => .bind (.still (.request _)) fun _ _ => .pure ⟨hw.trans ⟨rfl, rfl, rfl, rfl, rfl, rfl⟩, ha⟩) (fun _ => .pure ⟨hw, ha⟩)

theorem Fit.set {st : KV Nat Info} (h : Fit D c d X st) {k : Key} {v : Info} (hk : D k) (hv : Kin D v) (ha : Alive v) (ho : ¬ Y k → Own c d k v)
    (hXY : ∀ j, j ≠ k → X j → Y j) : Fit D c d Y (st.set k v) := by
  refine ⟨?_, ?_, ?_, ?_⟩
  · intro j
    rw [has_set, Bool.or_eq_true, decide_eq_true_eq, h.keys]
    exact ⟨fun hj => hj.elim (fun e => e ▸ hk) id, .inr⟩
  · intro j hj
    rw [infoOf_set]; split
    · exact hv
    · exact h.kin j hj
  · intro j hj
    rw [infoOf_set]; split
    · exact ha
    · exact h.alive j hj
  · intro j hj hy
    rw [infoOf_set]; split
    · rename_i e; subst e; exact ho hy
    · rename_i e; exact h.own j hj fun hx => hy (hXY j e hx)

theorem Kin.mono {D' : Key → Prop} {v : Info} (h : Kin D v) (hD : ∀ k, D k → D' k) : Kin D' v :=
  ⟨fun p hp => hD p (h.referrer p hp), fun q hq => hD q (h.referrals q hq), fun b hb => hD b (h.transition b hb), h.date⟩

/-- A new record -/
theorem Fit.add {st : KV Nat Info} (h : Fit D c d X st) {k : Key} {v : Info} (hv : Kin (fun j => D j ∨ j = k) v) (ha : Alive v) (ho : Own c d k v) :
    Fit (fun j => D j ∨ j = k) c d X (st.set k v) := by
  refine ⟨?_, ?_, ?_, ?_⟩
  · intro j
    rw [has_set, Bool.or_eq_true, decide_eq_true_eq, h.keys]
    exact Or.comm
  · intro j hj
    rw [infoOf_set]; split
    · exact hv
    · exact (h.kin j (hj.resolve_right ‹_›)).mono fun _ => .inl
  · intro j hj
    rw [infoOf_set]; split
    · exact ha
    · exact h.alive j (hj.resolve_right ‹_›)
  · intro j hj hy
    rw [infoOf_set]; split
    · rename_i e; subst e; exact ho
    · exact h.own j (hj.resolve_right ‹_›) hy

theorem Fix.put {k : Key} {v : Info} (hk : D k) (hv : Kin D v) (ha : Alive v) (ho : ¬ Y k → Own c d k v) (hXY : ∀ j, j ≠ k → X j → Y j) :
    Fix (At D c d X) (At D c d Y) Any (put k v) := by
  intro s a t hs e
  cases e
  exact ⟨⟨hs.fit.set hk hv ha ho hXY, hs.bank⟩, trivial⟩

theorem Fix.update {α : Type} {Q : α → Prop} {k : Key} {check : Bool} {f : Info → Act (Info × α)} (hk : D k) (hXY : ∀ j, j ≠ k → X j → Y j)
    (hf : ∀ v, Kin D v → Alive v → (¬ X k → Own c d k v) → Fix (At D c d X) (At D c d X)
      (fun r : Info × α => Kin D r.1 ∧ (check = false → Alive r.1) ∧ (¬ Y k → Own c d k r.1) ∧ Q r.2) (f v)) :
    Fix (At D c d X) (At D c d Y) Q (update k check f) := by
  unfold Referral.update
  refine .recover (.bind .get fun s hs => .bind (hf _ (hs.fit.kin k hk) (hs.fit.alive k hk) (hs.fit.own k hk)) fun r hr =>
    .bind (Q := fun w => Like r.1 w ∧ Alive w) ?_ fun w hw => .seq (.put hk (hw.1.kin hr.1) hw.2 (fun hy => hw.1.own (hr.2.2.1 hy)) hXY) fun _ _ => .pure hr.2.2.2)
  exact .ite (fun _ => .checkStatus) (fun hc => .pure ⟨.refl _, hr.2.1 (by simpa using hc)⟩)

/-- Own amounts and status as before, and nothing new in the lists -/
structure Near (D : Key → Prop) (v w : Info) : Prop where
  kin : Kin D w
  coins : w.tot .coins 0 = v.tot .coins 0
  delegated : w.tot .delegated 0 = v.tot .delegated 0
  status : w.status = v.status
  banished : w.banished = v.banished

theorem Near.alive {v w : Info} (h : Near D v w) (hv : Alive v) : Alive w := by
  unfold Alive; rw [h.status, h.banished]; exact hv
theorem Near.own {v w : Info} (h : Near D v w) {k : Key} (hv : Own c d k v) : Own c d k w := by
  unfold Own; rw [h.coins, h.delegated]; exact hv

/-- Updates that change neither own amounts nor status -/
theorem Fix.near {α : Type} {Q : α → Prop} {k : Key} {check : Bool} {f : Info → Act (Info × α)} (hk : D k)
    (hf : ∀ v, Kin D v → Fix (At D c d X) (At D c d X) (fun r : Info × α => Near D v r.1 ∧ Q r.2) (f v)) :
    Fix (At D c d X) (At D c d X) Q (Referral.update k check f) :=
  .update hk (fun _ _ h => h) fun v hv ha ho => (hf v hv).weaken fun _ hr => ⟨hr.1.kin, fun _ => hr.1.alive ha, fun hx => hr.1.own (ho hx), hr.2⟩

theorem Near.add {v : Info} (hv : Kin D v) (m : What → Int) {l : Nat} (hl : 1 ≤ l) : Near D v (v.add m l) :=
  ⟨⟨hv.referrer, hv.referrals, hv.transition, hv.date⟩, by simp [Info.add]; omega, by simp [Info.add]; omega, rfl, rfl⟩

theorem Near.addTree {v : Info} (hv : Kin D v) (sign : Int) (x : What → Nat → Int) {l : Nat} (hl : 1 ≤ l) : Near D v (v.addTree sign x l) :=
  ⟨⟨hv.referrer, hv.referrals, hv.transition, hv.date⟩, by simp [Info.addTree]; omega, by simp [Info.addTree]; omega, rfl, rfl⟩

theorem Fix.climb {check : Bool} {f : Nat → Key → Info → Act Info}
    (hf : ∀ l k v, 1 ≤ l → Kin D v → Fix (At D c d X) (At D c d X) (Near D v) (f l k v)) :
    ∀ (n l : Nat) (k : Option Key), 1 ≤ l → (∀ a, k = some a → D a) → Fix (At D c d X) (At D c d X) Any (climb check f n l k) := by
  intro n
  induction n with
  | zero => intro l k _ _; exact .pure trivial
  | succ n ih =>
    intro l k hl hk
    cases k with
    | none => exact .pure trivial
    | some k =>
      unfold Referral.climb
      exact .bind (Q := fun o => ∀ a, o = some a → D a) (.near (hk k rfl) fun v hv => .bind (hf l k v hl hv) fun w hw => .pure ⟨hw, hv.referrer⟩)
        fun next hn => ih _ _ (by omega) hn

theorem Fix.moveTotals (x : What → Nat → Int) : ∀ (n l : Nat) (a b : Option Key), 1 ≤ l → (∀ p, a = some p → D p) → (∀ p, b = some p → D p) →
    Fix (At D c d X) (At D c d X) Any (moveTotals x n l a b) := by
  intro n
  induction n with
  | zero => intros; exact .pure trivial
  | succ n ih =>
    intro l a b hl ha hb
    have one : ∀ (sign : Int) (o : Option Key), (∀ p, o = some p → D p) → Fix (At D c d X) (At D c d X) (fun o : Option Key => ∀ p, o = some p → D p) (match o with
      | none => (Pure.pure none : Act (Option Key))
      | some a => Referral.update a true (fun v => Pure.pure (v.addTree sign x l, v.referrer))) := by
      intro sign o ho
      cases o with
      | none => exact .pure (by intro p h; cases h)
      | some a => exact .near (ho a rfl) fun v hv => .pure ⟨.addTree hv _ _ hl, hv.referrer⟩
    unfold Referral.moveTotals
    exact .ite (fun _ => .pure trivial) fun _ => .bind (one _ _ ha) fun _ h1 => .bind (one _ _ hb) fun _ h2 => ih _ _ _ (by omega) h1 h2

theorem openAncestor_known {st : KV Nat Info} (h : Fit D c d X st) {now month : Int} : ∀ (n : Nat) (k o : Option Key),
    (∀ a, k = some a → D a) → openAncestor st now month n k = some o → ∀ a, o = some a → D a := by
  intro n
  induction n with
  | zero =>
    intro k o hk ho
    cases k with
    | none => unfold openAncestor at ho; cases ho; intro a h; cases h
    | some k => unfold openAncestor at ho; cases ho
  | succ n ih =>
    intro k o hk ho
    cases k with
    | none => unfold openAncestor at ho; cases ho; intro a h; cases h
    | some k =>
      unfold openAncestor at ho
      split at ho
      · exact ih _ _ (h.kin k (hk k rfl)).referrer ho
      · cases ho; exact hk

theorem Fix.attach {k : Key} (hk : D k) (x y : Int) (p : Option Key) (hp : ∀ a, p = some a → D a) : Fix (At D c d X) (At D c d X) Any (attach k x y p) := by
  cases p with
  | none => exact .pure trivial
  | some p =>
    refine .bind (Q := fun o => ∀ a, o = some a → D a) (.near (hp p rfl) fun v hv => .pure ⟨?_, hv.referrer⟩) fun next hn =>
      .ite (fun _ => .pure trivial) fun _ => .climb (fun l k v hl hv => .pure (.add hv _ hl)) _ _ _ (by omega) hn
    have := Near.add hv (money x y) (le_refl 1)
    refine ⟨⟨hv.referrer, ?_, hv.transition, hv.date⟩, this.coins, this.delegated, rfl, rfl⟩
    intro q hq
    rcases List.mem_append.1 hq with h | h
    · exact hv.referrals q h
    · rw [List.mem_singleton.1 h]; exact hk

theorem Fix.detach {k : Key} (x y : Int) (p : Option Key) (hp : ∀ a, p = some a → D a) : Fix (At D c d X) (At D c d X) Any (detach k x y p) := by
  cases p with
  | none => exact .pure trivial
  | some p =>
    refine .bind (Q := fun o => ∀ a, o = some a → D a) (.near (hp p rfl) fun v hv => .pure ⟨?_, hv.referrer⟩) fun next hn =>
      .ite (fun _ => .pure trivial) fun _ => .climb (fun l k v hl hv => .pure (.add hv _ hl)) _ _ _ (by omega) hn
    have := Near.add hv (money (-x) (-y)) (le_refl 1)
    exact ⟨⟨hv.referrer, fun q hq => hv.referrals q (removeFast_sub hq), hv.transition, hv.date⟩, this.coins, this.delegated, rfl, rfl⟩

theorem Fix.compressBody {k : Key} (hk : D k) : Fix (At D c d X) (At D c d X) Any (compressBody k) := by
  unfold Referral.compressBody
  refine .bind (Q := Kin D) (.update hk (fun _ _ h => h) fun v hv ha ho => ?_) fun old hold =>
    .bind (.forEach fun b hb => .near (hold.referrals b hb) fun v hv => .pure ⟨⟨⟨hold.referrer, hv.referrals, hv.transition, hv.date⟩, rfl, rfl, rfl, rfl⟩, trivial⟩) fun _ _ =>
    .bind (.climb (fun l k v hl hv => .bind (.still (.addCall _ _)) fun _ _ => .pure ?_) _ _ _ (by omega) hold.referrer) fun _ _ => .pure trivial
  · unfold compressSelf
    have hkin : ∀ w, Like { v with
        referrals := [], activeReferrals := []
        tot := fun x l => if x ≠ .active ∧ l = 0 then v.tot x l else 0
        compressionAt := none } w → Kin D w := fun w hw => hw.kin ⟨hv.referrer, (by intro q hq; cases hq), hv.transition, hv.date⟩
    refine .bind .errIf fun _ _ => .bind (.still (.addCall _ _)) fun _ _ => .bind (.setStatus k) fun w hw =>
      .bind (.still (.addCall _ _)) fun _ _ => .bind (.orPanic (Q := Any) fun _ _ => trivial) fun e _ => .bind .get fun s _ =>
      .bind (Q := fun u => Kin D u ∧ u.tot = w.tot ∧ u.status = 1) (.ite (fun _ => ?_) (fun _ => .pure ⟨hkin w hw.1, rfl, hw.2⟩)) fun u hu => .pure ⟨hu.1, ?_, ?_, hv⟩
    · have := hkin w hw.1
      exact .bind .get fun _ _ => .bind .scheduled fun _ hr => .pure ⟨⟨this.referrer, this.referrals, this.transition, by intro x h; cases h; exact hr⟩, rfl, hw.2⟩
    · intro _; exact .inr (by rw [hu.2.2])
    · intro hx
      have h1 := hw.1.own (c := c) (d := d) (k := k) (by have := ho hx; exact this)
      unfold Own at *
      rw [hu.2.1]; exact h1
  · have hs : Near D v (squeezed old.tot l v) :=
      ⟨⟨hv.referrer, hv.referrals, hv.transition, hv.date⟩, by simp [squeezed]; omega, by simp [squeezed]; omega, rfl, rfl⟩
    split
    · refine ⟨⟨hv.referrer, ?_, hv.transition, hv.date⟩, hs.coins, hs.delegated, rfl, rfl⟩
      intro q hq
      exact (List.mem_append.1 hq).elim (hv.referrals q) (hold.referrals q)
    · exact hs

theorem Fix.comeBackBody {k : Key} (hk : D k) : Fix (At D c d X) (At D c d X) Any (comeBackBody k) := by
  unfold Referral.comeBackBody
  refine .bind (Q := fun r => ∀ a, r.1 = some a → D a) (.update hk (fun _ _ h => h) fun v hv ha ho => .bind .get fun s hs =>
    .bind (.orPanic (Q := fun o => ∀ a, o = some a → D a) fun o h => openAncestor_known hs.fit _ _ _ hv.referrer h) fun p hp => .pure ⟨⟨hp, hv.referrals, hv.transition, by intro x h; cases h⟩, fun _ => .inr (by simp), ho, hp⟩)
    fun r hr => .bind (.attach hk _ _ _ hr) fun _ _ => .pure trivial

theorem Fix.activeBody {k : Key} (hk : D k) (value check : Bool) : Fix (At D c d X) (At D c d X) Any (activeBody k value check) := by
  unfold Referral.activeBody
  refine .bind .get fun s _ => .ite (fun _ => .pure trivial) fun _ => .bind (Q := fun o => ∀ a, o = some a → D a) (.near hk fun v hv => ?_) fun parent hp =>
    .bind (.climb (fun l a v hl hv => .pure ?_) _ _ _ (by omega) hp) fun _ _ => .bind (.ite (fun _ => .still (.request _)) fun _ => .pure trivial) fun _ _ => .pure trivial
  · unfold activateSelf
    refine .bind .get fun s _ => .bind (Q := Near D v) ?_ fun w hw => .pure ⟨hw, hv.referrer⟩
    have h1 : ∀ (o o' : Option Int), (∀ x, o' = some x → Schedule.inRange x = true) → Near D v { v.add (people value) 0 with active := value, compressionAt := o, banishmentAt := o' } := fun o o' ho =>
      ⟨⟨hv.referrer, hv.referrals, hv.transition, ho⟩, by simp [Info.add, people], by simp [Info.add, people], rfl, rfl⟩
    cases hb : v.banishmentAt with
    | none => exact .pure (by have := h1 (if value = true then none else some (s.now + s.compressionPeriod)) v.banishmentAt hv.date; exact this)
    | some t =>
      exact .ite (fun _ => .bind (.still (.request _)) fun _ _ => .pure (by exact h1 _ none (by intro x h; cases h))) fun _ =>
        .pure (by have := h1 (if value = true then none else some (s.now + s.compressionPeriod)) v.banishmentAt hv.date; exact this)
  · have := Near.add hv (people value) hl
    split
    · exact ⟨⟨hv.referrer, hv.referrals, hv.transition, hv.date⟩, this.coins, this.delegated, rfl, rfl⟩
    · exact this

theorem Fix.moveBody {k p q : Key} {r : Info} (hk : D k) (hp : D p) (hq : D q) : Fix (At D c d X) (At D c d X) Any (moveBody k r p q) := by
  unfold Referral.moveBody leave join
  refine .bind (Q := fun o => ∀ a, o = some a → D a) (.near hp fun v hv => .bind .panicIf fun _ _ => .pure ⟨?_, hv.referrer⟩) fun o ho =>
    .bind (Q := fun o => ∀ a, o = some a → D a) (.near hq fun v hv => .pure ⟨?_, hv.referrer⟩) fun o' ho' =>
    .bind (.moveTotals _ _ _ _ _ (by omega) ho ho') fun _ _ => .pure trivial
  · have := Near.addTree hv (-1) r.tot (le_refl 1)
    exact ⟨⟨hv.referrer, fun q hq => hv.referrals q (removeFast_sub (removeFast_sub hq)), hv.transition, hv.date⟩, this.coins, this.delegated, rfl, rfl⟩
  · have := Near.addTree hv 1 r.tot (le_refl 1)
    refine ⟨⟨hv.referrer, ?_, hv.transition, hv.date⟩, this.coins, this.delegated, rfl, rfl⟩
    intro q hq
    rcases List.mem_append.1 hq with h | h
    · exact hv.referrals q h
    · rw [List.mem_singleton.1 h]; exact hk

theorem Fix.banishBody {k : Key} (hk : D k) : Fix (At D c d X) (At D c d X) Any (banishBody k) := by
  unfold Referral.banishBody banishSelf
  exact .bind (Q := Kin D) (.update hk (fun _ _ h => h) fun v hv ha ho => .bind .get fun _ _ => .bind .errIf fun _ _ => .bind .errIf fun _ _ =>
    .bind (.orPanic (Q := Any) fun _ _ => trivial) fun _ _ => .bind .errIf fun _ _ => .pure ⟨⟨hv.referrer, hv.referrals, hv.transition, by intro x h; cases h⟩, fun _ => .inl rfl, ho, hv⟩) fun v hv =>
    .bind .errIf fun _ _ => .bind (.detach _ _ _ hv.referrer) fun _ _ => .pure trivial

theorem Fix.downgradeBody {k : Key} (hk : D k) : Fix (At D c d X) (At D c d X) Any (downgradeBody k) := by
  unfold Referral.downgradeBody downgradeSelf
  refine .bind (Q := Any) (.update hk (fun _ _ h => h) fun v hv ha ho => .bind .get fun s _ => .ite (fun _ => .pure ⟨hv, fun _ => ha, ho, trivial⟩) fun _ =>
    .ite (fun _ => .panic) fun _ => .bind (.setStatus k) fun w hw => .pure ⟨?_, (by intro h; cases h), fun hx => (hw.1.own (ho hx) : Own c d k w), trivial⟩)
    fun _ _ => .bind (.still (.addCall _ _)) fun _ _ => .pure trivial
  have := hw.1.kin hv
  exact ⟨this.referrer, this.referrals, this.transition, this.date⟩

theorem Fix.reviveDelegator {k : Key} {v : Info} (hk : D k) (hv : Kin D v) : Fix (At D c d X) (At D c d X) (fun w => Kin D w) (reviveDelegator k v) := by
  unfold Referral.reviveDelegator
  refine .bind (Q := Kin D) ?_ fun w hw => .ite (fun _ => ?_) fun _ => .pure hw
  · cases v.banishmentAt with
    | none => exact .pure hv
    | some t => exact .bind (.still (.request _)) fun _ _ => .pure ⟨hv.referrer, hv.referrals, hv.transition, by intro x h; cases h⟩
  · exact .bind .get fun s hs => .bind (.orPanic (Q := fun o => ∀ a, o = some a → D a) fun o h => openAncestor_known hs.fit _ _ _ hw.referrer h) fun p hp =>
      .bind (.attach hk _ _ _ hp) fun _ _ => .pure ⟨hp, hw.referrals, hw.transition, hw.date⟩

theorem Fix.ownBalance {k : Key} {v : Info} (hk : D k) (hv : Kin D v) :
    Fix (At D c d X) (At D c d X) (fun r : Info × (Info × Int × Int) => Kin D r.1 ∧ Own c d k r.1 ∧ Kin D r.2.1) (ownBalance k v) := by
  unfold Referral.ownBalance
  refine .bind .get fun s hs => .bind (Q := Kin D) (.ite (fun _ => .pure hv) fun _ => .bind (.still (.addCall _ _)) fun _ _ => ?_) fun w hw => .pure ⟨?_, ?_, hw⟩
  · unfold Referral.delegationChanged
    refine .bind .get fun s _ => .ite (fun _ => .pure hv) fun _ => .bind (.orPanic (Q := Any) fun _ _ => trivial) fun _ _ =>
      .ite (fun _ => .ite (fun _ => ?_) fun _ => .pure hv) fun _ => .reviveDelegator hk hv
    exact .bind .get fun _ _ => .bind .scheduled fun _ hr => .pure ⟨hv.referrer, hv.referrals, hv.transition, by intro x h; cases h; exact hr⟩
  · exact ⟨hw.referrer, hw.referrals, hw.transition, hw.date⟩
  · exact ⟨by simpa using (hs.bank k).1, by simpa using (hs.bank k).2⟩

/-- The change of a balance: before it only the record of `k` may be wrong, afterwards none is. -/
theorem Fix.balanceBody {k : Key} : Fix (At D c d (· = k)) (At D c d fun _ => False) (fun b => b = false → ¬ D k) (balanceBody k) := by
  unfold Referral.balanceBody
  intro s a t hs h
  rw [M.get_bind_ok] at h
  by_cases hd : D k
  · have he : (infoOf s.work k).isEmpty = false := by
      unfold Info.isEmpty
      rcases hs.fit.alive k hd with h | h
      · simp [h]
      · simp; omega
    rw [he, if_neg (by simp)] at h
    have key : ∀ {m : Act Bool}, m s = (.ok a, t) → Fix (At D c d (· = k)) (At D c d fun _ => False) (fun b => b = false → ¬ D k) m →
      At D c d (fun _ => False) t ∧ (a = false → ¬ D k) := fun h H => H s a t hs h
    refine key h (.seq (Q := fun r => Kin D r.1) (.update hd (fun j hj h => hj h) fun v hv ha ho => (Fix.ownBalance hd hv).weaken fun r hr =>
      ⟨hr.1, (by intro h; cases h), fun _ => hr.2.1, hr.2.2⟩) fun r hr => .bind (.ite (fun _ => .pure trivial) fun _ => .climb (fun l a v hl hv =>
        .bind (Q := Any) (.ite (fun _ => .pure trivial) fun _ => .still (.addCall _ _)) fun _ _ => .pure (.add hv _ hl)) _ _ _ (by omega) hr.referrer) fun _ _ => .pure (by intro h; cases h))
  · have hm : (infoOf s.work k).isEmpty = true := by
      rw [infoOf_of_not_has]
      · rfl
      · cases hh : s.work.has k with
        | false => rfl
        | true => exact absurd ((hs.fit.keys k).1 hh) hd
    rw [hm] at h
    cases h
    exact ⟨⟨⟨hs.fit.keys, hs.fit.kin, hs.fit.alive, fun j hj _ => hs.fit.own j hj fun e => hd (e ▸ hj)⟩, hs.bank⟩, fun _ => hd⟩
end
end Verif.Referral
