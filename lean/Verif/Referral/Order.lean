import Verif.Referral.View
import Verif.Referral.Lists
import Verif.Referral.Status
import Verif.Referral.Structure

/-!
C57, the order of the lists of active referrals.  `AddStringSorted` and `MergeStringsSorted` (/repo/util/lists.go:27-41, 53-89) take
sorted lists for granted; are the lists they are given sorted?  The order of texts (`<` and `strings.Compare` in Go) is the order of the
numbers that stand for them.
-/
namespace Verif.Referral.Order

/-- The list of every record is strictly increasing. -/
def Ordered (st : KV Nat Info) : Prop := ∀ k, (infoOf st k).activeReferrals.Pairwise (· < ·)

/-! ## The helpers of util/lists.go -/

theorem mem_addSorted_imp {x z : Key} : ∀ {l : List Key}, z ∈ addSorted l x → z = x ∨ z ∈ l
  | [], h => by simpa [addSorted] using h
  | y :: l, h => by
    unfold addSorted at h
    split at h
    · exact .inr h
    · split at h
      · rcases List.mem_cons.1 h with h | h
        · exact .inl h
        · exact .inr h
      · rcases List.mem_cons.1 h with h | h
        · exact .inr (by simp [h])
        · rcases mem_addSorted_imp h with h | h
          · exact .inl h
          · exact .inr (by simp [h])

theorem addSorted_ordered {x : Key} : ∀ {l : List Key}, l.Pairwise (· < ·) → (addSorted l x).Pairwise (· < ·)
  | [], _ => by simp [addSorted]
  | y :: l, h => by
    obtain ⟨h1, h2⟩ := List.pairwise_cons.1 h
    unfold addSorted
    split
    · exact h
    · rename_i hne
      split
      · rename_i hlt
        refine List.pairwise_cons.2 ⟨?_, h⟩
        intro z hz
        rcases List.mem_cons.1 hz with hz | hz
        · rw [hz]; exact hlt
        · exact Nat.lt_trans hlt (h1 z hz)
      · rename_i hge
        refine List.pairwise_cons.2 ⟨?_, addSorted_ordered h2⟩
        intro z hz
        rcases mem_addSorted_imp hz with hz | hz
        · rw [hz]
          show y < x
          have := Nat.lt_or_gt_of_ne hne
          exact this.resolve_right hge
        · exact h1 z hz

theorem mem_mergeLoop_imp {z : Key} : ∀ (n : Nat) (l1 l2 : List Key), z ∈ mergeLoop n l1 l2 → z ∈ l1 ∨ z ∈ l2 := by
  intro n
  induction n with
  | zero => intro l1 l2 h; cases l1 <;> cases l2 <;> simp_all [mergeLoop]
  | succ n ih =>
    intro l1 l2 h
    cases l1 with
    | nil => right; simpa [mergeLoop] using h
    | cons x l1 =>
      cases l2 with
      | nil => left; simpa [mergeLoop] using h
      | cons y l2 =>
        unfold mergeLoop at h
        split at h
        · rcases List.mem_cons.1 h with h | h
          · left; simp [h]
          · rcases ih _ _ h with h | h
            · left; simp [h]
            · right; exact h
        · split at h
          · rcases List.mem_cons.1 h with h | h
            · left; simp [h]
            · rcases ih _ _ h with h | h
              · left; simp [h]
              · right; simp [h]
          · rcases List.mem_cons.1 h with h | h
            · right; simp [h]
            · rcases ih _ _ h with h | h
              · left; exact h
              · right; simp [h]

theorem mergeLoop_ordered : ∀ (n : Nat) (l1 l2 : List Key), l1.Pairwise (· < ·) → l2.Pairwise (· < ·) →
    (mergeLoop n l1 l2).Pairwise (· < ·) := by
  intro n
  induction n with
  | zero => intro l1 l2 h1 h2; cases l1 <;> cases l2 <;> simp_all [mergeLoop]
  | succ n ih =>
    intro l1 l2 h1 h2
    cases l1 with
    | nil => simpa [mergeLoop] using h2
    | cons x l1 =>
      cases l2 with
      | nil => simpa [mergeLoop] using h1
      | cons y l2 =>
        obtain ⟨hx, h1'⟩ := List.pairwise_cons.1 h1
        obtain ⟨hy, h2'⟩ := List.pairwise_cons.1 h2
        unfold mergeLoop
        split
        · rename_i hlt
          refine List.pairwise_cons.2 ⟨?_, ih _ _ h1' h2⟩
          intro z hz
          rcases mem_mergeLoop_imp _ _ _ hz with hz | hz
          · exact hx z hz
          · rcases List.mem_cons.1 hz with hz | hz
            · rw [hz]; exact hlt
            · exact Nat.lt_trans hlt (hy z hz)
        · rename_i hge
          split
          · rename_i he
            refine List.pairwise_cons.2 ⟨?_, ih _ _ h1' h2'⟩
            intro z hz
            rcases mem_mergeLoop_imp _ _ _ hz with hz | hz
            · exact hx z hz
            · rw [he]; exact hy z hz
          · rename_i hne
            have hlt : y < x := (Nat.lt_or_gt_of_ne hne).resolve_left hge
            refine List.pairwise_cons.2 ⟨?_, ih _ _ h1 h2'⟩
            intro z hz
            rcases mem_mergeLoop_imp _ _ _ hz with hz | hz
            · rcases List.mem_cons.1 hz with hz | hz
              · rw [hz]; exact hlt
              · exact Nat.lt_trans hlt (hx z hz)
            · exact hy z hz

theorem mergeSorted_ordered {l1 l2 : List Key} (h1 : l1.Pairwise (· < ·)) (h2 : l2.Pairwise (· < ·)) :
    (mergeSorted l1 l2).Pairwise (· < ·) := mergeLoop_ordered _ _ _ h1 h2

theorem removeOrdered_ordered {l : List Key} {x : Key} (h : l.Pairwise (· < ·)) : (removeOrdered l x).Pairwise (· < ·) :=
  h.sublist List.erase_sublist

/-! ## What computations keep, and what they return -/

/-- The list of one record is in order. -/
def Neat (v : Info) : Prop := v.activeReferrals.Pairwise (· < ·)

/-- Both the store and what a bunch updater sees -/
def Both (s : State) : Prop := Ordered s.store ∧ Ordered s.work

/-- The computation keeps an invariant, and what it returns meets `Q`. -/
def Gives {α : Type} (I : State → Prop) (Q : α → Prop) (m : Act α) : Prop :=
  ∀ s, I s → I (m s).2 ∧ ∀ a, (m s).1 = .ok a → Q a

namespace Gives
variable {α β : Type} {I : State → Prop}

theorem pure {Q : α → Prop} {a : α} (h : Q a) : Gives I Q (Pure.pure a : Act α) := by
  intro s hs
  refine ⟨hs, ?_⟩
  intro b hb
  have : a = b := by injection hb
  exact this ▸ h

theorem bind {Q : α → Prop} {R : β → Prop} {m : Act α} {f : α → Act β} (hm : Gives I Q m) (hf : ∀ a, Q a → Gives I R (f a)) :
    Gives I R (m >>= f) := by
  intro s hs
  have h := hm s hs
  show I (M.bind m f s).2 ∧ ∀ b, (M.bind m f s).1 = .ok b → R b
  unfold M.bind
  rcases hr : m s with ⟨r, s'⟩
  rw [hr] at h
  cases r with
  | ok a => exact hf a (h.2 a rfl) s' h.1
  | err => exact ⟨h.1, by intro b hb; simp at hb⟩
  | panic => exact ⟨h.1, by intro b hb; simp at hb⟩

theorem get : Gives I I (M.get : Act State) := by
  intro s hs
  refine ⟨hs, ?_⟩
  intro b hb
  have : s = b := by injection hb
  exact this ▸ hs

theorem err {Q : α → Prop} : Gives I Q (M.err : Act α) := fun _ hs => ⟨hs, by intro b hb; cases hb⟩
theorem panic {Q : α → Prop} : Gives I Q (M.panic : Act α) := fun _ hs => ⟨hs, by intro b hb; cases hb⟩
theorem errIf {c : Bool} : Gives I (fun _ => True) (M.errIf c : Act Unit) := by
  unfold M.errIf; split
  · exact err
  · exact pure trivial
theorem panicIf {c : Bool} : Gives I (fun _ => True) (M.panicIf c : Act Unit) := by
  unfold M.panicIf; split
  · exact panic
  · exact pure trivial
theorem orPanic {o : Option α} : Gives I (fun _ => True) (M.orPanic o : Act α) := by
  unfold M.orPanic; split
  · exact pure trivial
  · exact panic
theorem modify {f : State → State} (h : ∀ s, I s → I (f s)) : Gives I (fun _ => True) (M.modify f : Act Unit) :=
  fun s hs => ⟨h s hs, fun _ _ => trivial⟩
theorem set {s' : State} (h : I s') : Gives I (fun _ => True) (M.set s' : Act Unit) := fun _ _ => ⟨h, fun _ _ => trivial⟩
theorem weaken {Q R : α → Prop} {m : Act α} (h : Gives I Q m) (hq : ∀ a, Q a → R a) : Gives I R m :=
  fun s hs => ⟨(h s hs).1, fun a ha => hq a ((h s hs).2 a ha)⟩
theorem ite {c : Prop} [Decidable c] {Q : α → Prop} {m n : Act α} (hm : c → Gives I Q m) (hn : ¬ c → Gives I Q n) :
    Gives I Q (if c then m else n) := by
  split
  · exact hm ‹_›
  · exact hn ‹_›
theorem recover {Q : α → Prop} {m : Act α} (h : Gives I Q m) : Gives I Q (Referral.recover m) := by
  intro s hs
  have h := h s hs
  unfold Referral.recover
  rcases hr : m s with ⟨r, s'⟩
  rw [hr] at h
  cases r with
  | ok a => exact h
  | err => exact h
  | panic => exact ⟨h.1, by intro b hb; cases hb⟩
theorem must {Q : α → Prop} {m : Act α} (h : Gives I Q m) : Gives I Q (Referral.must m) := by
  intro s hs
  have h := h s hs
  unfold Referral.must
  rcases hr : m s with ⟨r, s'⟩
  rw [hr] at h
  cases r with
  | ok a => exact h
  | panic => exact h
  | err => exact ⟨h.1, by intro b hb; cases hb⟩
theorem forEach {f : α → Act Unit} (h : ∀ a, Gives I (fun _ => True) (f a)) : ∀ l : List α, Gives I (fun _ => True) (M.forEach l f)
  | [] => pure trivial
  | a :: l => by
    rw [M.forEach]
    exact bind (h a) fun _ _ => forEach h l
theorem tx {Q : α → Prop} {m : Act α} {s : State} (h : Gives I Q m) (hs : I s) : I (M.tx m s) := by
  rcases M.tx_cases m s with ⟨a, ht⟩ | ⟨_, ht⟩
  · have := (h s hs).1
    rwa [ht] at this
  · rw [ht]; exact hs
end Gives

/-! ## The parts of operations -/

theorem ordered_set {st : KV Nat Info} (h : Ordered st) {k : Key} {v : Info} (hv : Neat v) : Ordered (st.set k v) := by
  intro j
  rw [infoOf_set]
  split
  · exact hv
  · exact h j

theorem setStatus_gives {v : Info} (hv : Neat v) (x : Nat) (k : Key) : Gives Both Neat (setStatus v x k) := by
  refine Gives.get.bind fun s hs => Gives.ite (fun _ => .pure hv) fun _ => ?_
  refine Gives.bind (Gives.set ?_) fun _ _ => .pure ?_
  · exact hs
  · exact hv

theorem request_gives {I : State → Prop} (hI : ∀ s t, I s → I { s with sched := t }) (r : Schedule.Req) :
    Gives I (fun _ => True) (request r) :=
  Gives.get.bind fun s hs => Gives.orPanic.bind fun t _ => .set (hI s t hs)

theorem request_both (r : Schedule.Req) : Gives Both (fun _ => True) (request r) := request_gives (fun _ _ h => h) r

theorem scheduleBanishment_gives (k : Key) {v : Info} (hv : Neat v) : Gives Both Neat (scheduleBanishment k v) :=
  Gives.get.bind fun _ _ => (request_both _).bind fun _ _ => .pure hv

theorem addCall_gives (x : Event) (k : Key) : Gives Both (fun _ => True) (addCall x k) := .modify fun _ h => h

theorem checkStatus_gives (k : Key) {v : Info} (hv : Neat v) : Gives Both Neat (checkStatus k v) := by
  refine Gives.bind (Q := Neat) (.ite (fun _ => ?_) fun _ => .pure hv) fun v hv => ?_
  · exact (setStatus_gives hv _ _).bind fun w hw => (addCall_gives _ _).bind fun _ _ => .pure hw
  refine Gives.get.bind fun s _ => Gives.orPanic.bind fun ok _ => .ite (fun _ => ?_) fun _ => .ite (fun _ => ?_) fun _ => .pure hv
  · refine Gives.orPanic.bind fun next _ => .ite (fun _ => ?_) fun _ => .pure hv
    refine (setStatus_gives ?_ _ _).bind fun w hw => (addCall_gives _ _).bind fun _ _ => .pure hw
    exact hv
  · exact (request_both _).bind fun _ _ => .pure hv

theorem put_gives (k : Key) {v : Info} (hv : Neat v) : Gives Both (fun _ => True) (put k v) :=
  .modify fun _ h => ⟨h.1, ordered_set h.2 hv⟩

theorem update_gives {α : Type} {Q : α → Prop} (k : Key) (check : Bool) {f : Info → Act (Info × α)}
    (hf : ∀ v, Neat v → Gives Both (fun r => Neat r.1 ∧ Q r.2) (f v)) : Gives Both Q (update k check f) := by
  refine Gives.recover (Gives.get.bind fun s hs => (hf _ (hs.2 k)).bind fun r hr => ?_)
  refine Gives.bind (Q := Neat) (.ite (fun _ => checkStatus_gives k hr.1) fun _ => .pure hr.1) fun v hv => ?_
  exact (put_gives k hv).bind fun _ _ => .pure hr.2

theorem commit_gives (e : Env) : Gives Both (fun _ => True) (commit e) :=
  (Gives.modify fun _ h => ⟨h.2, h.2⟩).bind fun _ _ => Gives.get.bind fun _ _ => .errIf

theorem climb_gives (check : Bool) {f : Nat → Key → Info → Act Info} (hf : ∀ l k v, Neat v → Gives Both Neat (f l k v)) :
    ∀ (n l : Nat) (o : Option Key), Gives Both (fun _ => True) (climb check f n l o)
  | 0, _, _ => .pure trivial
  | _ + 1, _, none => .pure trivial
  | n + 1, l, some k => by
    rw [climb]
    exact (update_gives (Q := fun _ => True) k check fun v hv => (hf l k v hv).bind fun w hw => .pure ⟨hw, trivial⟩).bind
      fun _ _ => climb_gives check hf n (l + 1) _

/-- Only the store counts between operations. -/
def InStore (s : State) : Prop := Ordered s.store

theorem bunch_gives (e : Env) {m : Act Bool} (h : Gives Both (fun _ => True) m) : Gives InStore (fun _ => True) (bunch e m) := by
  intro s hs
  have h' : Gives Both (fun _ => True) (m >>= fun b => if b then commit e else pure ()) :=
    h.bind fun b _ => .ite (fun _ => commit_gives e) fun _ => .pure trivial
  have := h' { s with work := s.store, calls := [] } ⟨hs, hs⟩
  exact ⟨this.1.1, this.2⟩

/-! ## The operations -/

theorem addTopLevel_gives (e : Env) (k : Key) : Gives InStore (fun _ => True) (addTopLevel e k) := by
  refine Gives.recover (Gives.get.bind fun s _ => Gives.errIf.bind fun _ _ => bunch_gives e ?_)
  exact (put_gives k (by simp [Neat, newInfo])).bind fun _ _ => .pure trivial

theorem appendBody_gives (p c : Key) (a b : Bool) : Gives Both (fun _ => True) (appendBody p c a b) := by
  refine Gives.get.bind fun s _ => (put_gives c (by cases b <;> simp [Neat, newInfo])).bind fun _ _ => ?_
  refine Gives.bind (Q := fun _ => True) (update_gives p true fun v hv => ?_) fun r _ => Gives.errIf.bind fun _ _ => ?_
  · exact (addCall_gives _ _).bind fun _ _ => .pure ⟨hv, trivial⟩
  · refine (climb_gives true (fun l k v hv => ?_) _ _ _).bind fun _ _ => .pure trivial
    exact (addCall_gives _ _).bind fun _ _ => .pure hv

theorem appendChild_gives (e : Env) (p c : Key) (a b : Bool) : Gives InStore (fun _ => True) (appendChild e p c a b) :=
  Gives.get.bind fun _ _ => Gives.errIf.bind fun _ _ => bunch_gives e (appendBody_gives p c a b)

theorem compressSelf_gives (k : Key) {v : Info} (hv : Neat v) :
    Gives Both (fun r => Neat r.1 ∧ Neat r.2) (compressSelf k v) := by
  refine Gives.errIf.bind fun _ _ => (addCall_gives _ _).bind fun _ _ => ?_
  refine (setStatus_gives (by simp [Neat]) _ _).bind fun w hw => (addCall_gives _ _).bind fun _ _ => ?_
  refine Gives.orPanic.bind fun d _ => Gives.get.bind fun s _ => ?_
  refine Gives.bind (Q := Neat) (.ite (fun _ => scheduleBanishment_gives k hw) fun _ => .pure hw) fun w hw => ?_
  exact .pure ⟨hw, hv⟩

theorem compress_gives (e : Env) (k : Key) : Gives InStore (fun _ => True) (compress e k) := by
  refine bunch_gives e ?_
  refine (update_gives k false fun v hv => compressSelf_gives k hv).bind fun old hold => ?_
  refine (Gives.forEach (fun c => update_gives (Q := fun _ => True) c false fun v hv => .pure ⟨hv, trivial⟩) _).bind fun _ _ => ?_
  refine (climb_gives true (fun l a v hv => ?_) _ _ _).bind fun _ _ => .pure trivial
  refine (addCall_gives _ _).bind fun _ _ => .pure ?_
  split
  · exact mergeSorted_ordered hv hold
  · exact hv

theorem attach_gives (k : Key) (c d : Int) (o : Option Key) : Gives Both (fun _ => True) (attach k c d o) := by
  cases o with
  | none => exact .pure trivial
  | some p =>
    refine Gives.bind (Q := fun _ => True) (update_gives p true fun v hv => .pure ⟨hv, trivial⟩) fun next _ => ?_
    refine .ite (fun _ => .pure trivial) fun _ => climb_gives true (fun l k v hv => ?_) _ _ _
    exact .pure hv

theorem reviveDelegator_gives (k : Key) {v : Info} (hv : Neat v) : Gives Both Neat (reviveDelegator k v) := by
  refine Gives.bind (Q := Neat) ?_ fun v hv => .ite (fun _ => ?_) fun _ => .pure hv
  · split
    · exact (request_both _).bind fun _ _ => .pure hv
    · exact .pure hv
  · exact Gives.get.bind fun _ _ => Gives.orPanic.bind fun _ _ => (attach_gives _ _ _ _).bind fun _ _ => .pure hv

theorem delegationChanged_gives (k : Key) {v : Info} (hv : Neat v) (d : Int) : Gives Both Neat (delegationChanged k v d) := by
  refine Gives.get.bind fun s _ => .ite (fun _ => .pure hv) fun _ => Gives.orPanic.bind fun d _ => .ite (fun _ => ?_) fun _ =>
    reviveDelegator_gives k hv
  exact .ite (fun _ => scheduleBanishment_gives k hv) fun _ => .pure hv

theorem ownBalance_gives (k : Key) {v : Info} (hv : Neat v) :
    Gives Both (fun r => Neat r.1 ∧ True) (ownBalance k v) := by
  refine Gives.get.bind fun s _ => Gives.bind (Q := Neat) (.ite (fun _ => .pure hv) fun _ => ?_) fun v hv => .pure ⟨hv, trivial⟩
  exact (addCall_gives _ _).bind fun _ _ => delegationChanged_gives k hv _

theorem onBalanceChanged_gives (e : Env) (k : Key) : Gives InStore (fun _ => True) (onBalanceChanged e k) := by
  refine bunch_gives e (Gives.get.bind fun s _ => .ite (fun _ => .pure trivial) fun _ => ?_)
  refine Gives.bind (Q := fun _ => True) (update_gives k true fun v hv => ownBalance_gives k hv) fun r _ => ?_
  refine Gives.bind (Q := fun _ => True) (.ite (fun _ => .pure trivial) fun _ => ?_) fun _ _ => .pure trivial
  refine climb_gives true (fun l a v hv => ?_) _ _ _
  exact Gives.bind (Q := fun _ => True) (.ite (fun _ => .pure trivial) fun _ => addCall_gives _ _) fun _ _ => .pure hv

theorem comeBack_gives (e : Env) (k : Key) : Gives InStore (fun _ => True) (comeBack e k) := by
  refine bunch_gives e ?_
  refine Gives.bind (Q := fun _ => True) (update_gives k false fun v hv => ?_) fun r _ => (attach_gives _ _ _ _).bind fun _ _ =>
    .pure trivial
  exact Gives.get.bind fun _ _ => Gives.orPanic.bind fun _ _ => .pure ⟨hv, trivial⟩

theorem activateSelf_gives (k : Key) (b : Bool) {v : Info} (hv : Neat v) :
    Gives Both (fun r => Neat r.1 ∧ True) (activateSelf k b v) := by
  refine Gives.get.bind fun s _ => Gives.bind (Q := Neat) ?_ fun w hw => .pure ⟨hw, trivial⟩
  split
  · exact .ite (fun _ => (request_both _).bind fun _ _ => .pure hv) fun _ => .pure hv
  · exact .pure hv

theorem setActive_gives (e : Env) (k : Key) (b c : Bool) : Gives InStore (fun _ => True) (setActive e k b c) := by
  refine bunch_gives e (Gives.get.bind fun s _ => .ite (fun _ => .pure trivial) fun _ => ?_)
  refine Gives.bind (Q := fun _ => True) (update_gives k false fun v hv => activateSelf_gives k b hv) fun p _ => ?_
  refine (climb_gives c (fun l a v hv => ?_) _ _ _).bind fun _ _ => ?_
  · refine .pure ?_
    split
    · cases b
      · exact removeOrdered_ordered hv
      · exact addSorted_ordered hv
    · exact hv
  · exact Gives.bind (Q := fun _ => True) (.ite (fun _ => request_both _) fun _ => .pure trivial) fun _ _ => .pure trivial

theorem validateTransition_gives (k : Key) (o : Option Key) (b : Bool) :
    Gives InStore (fun _ => True) (validateTransition k o b) := by
  refine Gives.get.bind fun s _ => ?_
  cases o with
  | none => exact .err
  | some p =>
    exact Gives.errIf.bind fun _ _ => Gives.errIf.bind fun _ _ => Gives.errIf.bind fun _ _ => Gives.errIf.bind fun _ _ =>
      Gives.orPanic.bind fun _ _ => .errIf

theorem setPurse_gives (e : Env) (a : Addr) (p : Purse) : Gives InStore (fun _ => True) (setPurse e a p) := by
  refine Gives.bind (Gives.modify ?_) fun _ _ => onBalanceChanged_gives e _
  exact fun _ h => h

theorem pay_gives (e : Env) (a : Addr) (x : Int) : Gives InStore (fun _ => True) (pay e a x) :=
  Gives.get.bind fun _ _ => Gives.errIf.bind fun _ _ => (setPurse_gives e _ _).bind fun _ _ => Gives.get.bind fun _ _ =>
    setPurse_gives e _ _

theorem setInfo_gives (k : Key) {v : Info} (hv : Neat v) : Gives InStore (fun _ => True) (setInfo k v) :=
  .modify fun _ h => ordered_set h hv

theorem requestTransition_gives (e : Env) (k : Key) (o : Option Key) :
    Gives InStore (fun _ => True) (requestTransition e k o) := by
  refine (validateTransition_gives k o true).bind fun _ _ => Gives.get.bind fun s _ => ?_
  refine Gives.bind (Q := fun _ => True) (.ite (fun _ => pay_gives e _ _) fun _ => .pure trivial) fun _ _ => ?_
  refine Gives.get.bind fun s hs => (setInfo_gives k ?_).bind fun _ _ => request_gives (fun _ _ h => h) _
  exact hs k

theorem cancelTransition_gives (k : Key) : Gives InStore (fun _ => True) (cancelTransition k) := by
  refine Gives.get.bind fun s hs => setInfo_gives k ?_
  exact hs k

theorem moveTotals_gives (x : What → Nat → Int) : ∀ (n l : Nat) (o p : Option Key), Gives Both (fun _ => True) (moveTotals x n l o p)
  | 0, _, _, _ => .pure trivial
  | n + 1, l, o, p => by
    unfold moveTotals
    refine .ite (fun _ => .pure trivial) fun _ => ?_
    refine Gives.bind (Q := fun _ => True) ?_ fun o' _ => Gives.bind (Q := fun _ => True) ?_ fun p' _ => moveTotals_gives x n _ _ _
    · cases o with
      | none => exact .pure trivial
      | some a => exact update_gives a true fun v hv => .pure ⟨hv, trivial⟩
    · cases p with
      | none => exact .pure trivial
      | some a => exact update_gives a true fun v hv => .pure ⟨hv, trivial⟩

theorem moveBody_gives (k : Key) {r : Info} (hr : r.active = false) (o p : Key) : Gives Both (fun _ => True) (moveBody k r o p) := by
  refine Gives.bind (Q := fun _ => True) (update_gives o true fun v hv => ?_) fun a _ =>
    Gives.bind (Q := fun _ => True) (update_gives p true fun v hv => ?_) fun b _ => (moveTotals_gives _ _ _ _ _).bind fun _ _ =>
      .pure trivial
  · refine Gives.panicIf.bind fun _ _ => .pure ⟨?_, trivial⟩
    simp only [hr]
    exact hv
  · refine .pure ⟨?_, trivial⟩
    simp only [hr]
    exact hv

/-- An approved transition of an inactive account -/
theorem affirmTransition_at (e : Env) (k : Key) {s : State} (hs : InStore s) (hk : (infoOf s.store k).active = false) :
    InStore (affirmTransition e k s).2 := by
  have hv : Neat { infoOf s.store k with referrer := (infoOf s.store k).transition, transition := none } := hs k
  refine ((validateTransition_gives k (infoOf s.store k).transition false).bind fun _ _ => (setInfo_gives k hv).bind fun _ _ => ?_ : Gives
    InStore (fun _ => True) _) s hs |>.1
  split
  · exact Gives.must (bunch_gives e (moveBody_gives k hk _ _))
  · exact .panic

theorem resolveTransition_at (e : Env) (g k : Key) (b : Bool) {s : State} (hs : InStore s)
    (hk : b = true → (infoOf s.store k).active = false) : InStore (resolveTransition e g k b s).2 := by
  show InStore ((M.errIf ((infoOf s.store k).referrer != some g) >>= fun _ =>
    if b then affirmTransition e k else cancelTransition k) s).2
  cases hc : ((infoOf s.store k).referrer != some g) with
  | true => exact hs
  | false =>
    cases b with
    | true => exact affirmTransition_at e k hs (hk rfl)
    | false => exact (cancelTransition_gives k s hs).1

theorem banish_gives (e : Env) (k : Key) : Gives InStore (fun _ => True) (banish e k) := by
  refine (bunch_gives e ?_).bind fun _ _ => .errIf
  refine Gives.bind (Q := fun _ => True) (update_gives k false fun v hv => ?_) fun v _ => Gives.errIf.bind fun _ _ => ?_
  · refine Gives.get.bind fun _ _ => Gives.errIf.bind fun _ _ => Gives.errIf.bind fun _ _ => Gives.orPanic.bind fun _ _ =>
      Gives.errIf.bind fun _ _ => .pure ⟨?_, trivial⟩
    exact hv
  · refine Gives.bind (Q := fun _ => True) ?_ fun _ _ => .pure trivial
    cases v.referrer with
    | none => exact .pure trivial
    | some p =>
      refine Gives.bind (Q := fun _ => True) (update_gives p true fun v hv => .pure ⟨?_, trivial⟩) fun next _ => ?_
      · exact hv
      · refine .ite (fun _ => .pure trivial) fun _ => climb_gives true (fun l k v hv => .pure ?_) _ _ _
        exact hv

theorem performDowngrade_gives (e : Env) (k : Key) : Gives InStore (fun _ => True) (performDowngrade e k) := by
  refine bunch_gives e ?_
  refine Gives.bind (Q := fun _ => True) (update_gives k true fun v hv => ?_) fun _ _ => (addCall_gives _ _).bind fun _ _ => .pure trivial
  refine Gives.get.bind fun _ _ => .ite (fun _ => .pure ⟨hv, trivial⟩) fun _ => .ite (fun _ => .panic) fun _ => ?_
  exact (setStatus_gives hv _ _).bind fun w hw => .pure ⟨hw, trivial⟩

theorem performCompression_gives (e : Env) (k : Key) : Gives InStore (fun _ => True) (performCompression e k) :=
  Gives.get.bind fun _ _ => .ite (fun _ => .pure trivial) fun _ => compress_gives e k

theorem register_gives (e : Env) (c p : Key) (b : Bool) : Gives InStore (fun _ => True) (register e c p b) :=
  (appendChild_gives e p c _ _).bind fun _ _ => Gives.get.bind fun _ _ => (request_gives (fun _ _ h => h) _).bind fun _ _ =>
    .ite (fun _ => setActive_gives e _ _ _) fun _ => .pure trivial

theorem returnIfBanished_gives (e : Env) (k : Key) : Gives InStore (fun _ => True) (returnIfBanished e k) :=
  Gives.get.bind fun _ _ => .ite (fun _ => comeBack_gives e k) fun _ => .pure trivial

theorem importBanished_gives (k : Key) (o : Option Key) : Gives InStore (fun _ => True) (importBanished k o) := by
  refine .modify fun s h => ordered_set h ?_
  simp [Neat]

theorem importTimes_gives (k : Key) (c b d : Option Int) (t : Option Key) (x : Nat) :
    Gives InStore (fun _ => True) (importTimes k c b d t x) := by
  refine .modify fun s h => ordered_set h ?_
  exact h k

/-! ## Executions -/

/-- No account is moved while it is active. -/
def NotMoved : Op → State → Prop
  | .resolve _ k true, s => (infoOf s.store k).active = false
  | _, _ => True

theorem step_ordered (e : Env) (op : Op) (s : State) (hs : InStore s) (ho : NotMoved op s) : InStore (step e op s) := by
  cases op with
  | top k => exact (addTopLevel_gives e k).tx hs
  | child p c => exact (appendChild_gives e p c _ _).tx hs
  | banished k f => exact (importBanished_gives k _).tx hs
  | times k c b d t x => exact (importTimes_gives k c b d t x).tx hs
  | activate k => exact (setActive_gives e k _ _).tx hs
  | register c p a => exact (register_gives e c p a).tx hs
  | comeBack k => exact (returnIfBanished_gives e k).tx hs
  | subscribe k => exact ((returnIfBanished_gives e k).bind fun _ _ => setActive_gives e k _ _ : Gives _ (fun _ => True) _).tx hs
  | expire k => exact (setActive_gives e k _ _ s hs).1
  | balance a p => exact (setPurse_gives e a p s hs).1
  | request k d => exact (requestTransition_gives e k d).tx hs
  | resolve g k b =>
    show InStore (M.tx (resolveTransition e g k b) s)
    rcases M.tx_cases (resolveTransition e g k b) s with ⟨a, ht⟩ | ⟨_, ht⟩
    · have := resolveTransition_at e g k b hs (fun hb => by subst hb; exact ho)
      rwa [ht] at this
    · rw [ht]; exact hs
  | downgrade k => exact (performDowngrade_gives e k s hs).1
  | compression k => exact (performCompression_gives e k s hs).1
  | timeout k => exact (cancelTransition_gives k s hs).1
  | banish k => exact (banish_gives e k s hs).1
  | world n d p c => exact hs

/-- The order of C57: as long as no account is moved while it is active, the list of active referrals of every account is strictly
increasing.  Missing: moves of active accounts, see `C57_order_violation`. -/
theorem C57_ordered_partial (l : List (Env × Op)) (s : State) (h0 : s.start) (hl : Along NotMoved l s) :
    Ordered (run l s).store := by
  refine Along.run step_ordered l s ?_ hl
  intro k
  rw [show s.store = KV.empty from h0]
  exact List.Pairwise.nil

/-- Three generations; a referral of account 4 and one of account 10 are active. -/
def family : List (Env × Op) :=
  [(yes, .top 2), (yes, .child 2 4), (yes, .child 2 10), (yes, .child 4 8), (yes, .child 4 12), (yes, .child 10 6), (yes, .activate 4),
   (yes, .activate 12), (yes, .activate 8), (yes, .activate 6), (yes, .activate 10)]

/-- The hypotheses are met, and lists are filled in order: by activations in any order, and by a compression that merges the list of
account 4 into that of account 2. -/
example : empty0.start ∧
    Along NotMoved (family ++ [(yes, .expire 4), (yes, .world 9000000 0 0 0), (yes, .compression 4)]) empty0 ∧
    [2, 4, 10].map (fun k => (infoOf (run family empty0).store k).activeReferrals) = [[4, 10], [8, 12], [6]] ∧
    (infoOf (run (family ++ [(yes, .expire 4), (yes, .world 9000000 0 0 0), (yes, .compression 4)]) empty0).store 2).activeReferrals =
      [8, 10, 12] := by
  refine ⟨rfl, ?_, by decide +kernel, by decide +kernel⟩
  simp only [family, List.cons_append, List.nil_append, Along, NotMoved, and_self]

end Verif.Referral.Order
