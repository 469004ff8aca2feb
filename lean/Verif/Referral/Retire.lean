import Verif.Referral.Deadlines4

/-! Properties C74 and C75: accounts that are out of business, and the index of high statuses; the calculus. -/
namespace Verif.Referral
open Relation

/-! ### Specification -/

/-- The account has a referrer, is not active, and no date is set for its compression: it was compressed already. -/
def Retired (v : Info) : Prop := v.referrer ≠ none ∧ v.active = false ∧ v.compressionAt = none

/-- A record in order: banished accounts and accounts that are to be banished are retired, active accounts have no date of compression, and
retired accounts have no referrals and no high status. -/
structure Settled (v : Info) : Prop where
  banished : v.banished = true → Retired v
  awaiting : v.banishmentAt ≠ none → Retired v
  active : v.active = true → v.compressionAt = none
  retired : Retired v → v.referrals = [] ∧ v.activeReferrals = [] ∧ v.status < 5

/-- The index holds exactly the statuses from 5 on, each once. -/
structure Sync (index : List (Nat × Key)) (status : Key → Nat) : Prop where
  nodup : index.Nodup
  mem : ∀ n j, (n, j) ∈ index ↔ 5 ≤ n ∧ status j = n

/-! ### Rules for records -/

/-- What every update may do to a record: change totals, and give a status that is not above what the account may have. -/
structure Lenient (P : Info → Prop) : Prop where
  tot : ∀ (v : Info) (f : What → Nat → Int), P v → P { v with tot := f }
  check : ∀ (v : Info) (n : Nat) (d : Option Int), P v → (n ≤ v.status ∨ n < 5 ∨ 5 ≤ v.status ∨ v.activeReferrals ≠ []) →
    P { v with status := n, downgradeAt := d }

theorem Settled.lenient : Lenient Settled where
  tot := fun v f h => ⟨h.banished, h.awaiting, h.active, h.retired⟩
  check := by
    intro v n d h hn
    refine ⟨h.banished, h.awaiting, h.active, fun hr => ?_⟩
    obtain ⟨h1, h2, h3⟩ := h.retired hr
    refine ⟨h1, h2, ?_⟩
    show n < 5
    rcases hn with hn | hn | hn | hn
    · omega
    · exact hn
    · omega
    · exact absurd h2 hn

theorem lenient_true : Lenient fun _ => True := ⟨fun _ _ _ => trivial, fun _ _ _ _ _ => trivial⟩

/-- As `Settled`, and no compression is overdue. -/
def Timely (now : Int) (v : Info) : Prop := Settled v ∧ ∀ t, v.referrer ≠ none → v.compressionAt = some t → now ≤ t

theorem Timely.lenient (now : Int) : Lenient (Timely now) where
  tot := fun v f h => ⟨Settled.lenient.tot v f h.1, h.2⟩
  check := fun v n d h hn => ⟨Settled.lenient.check v n d h.1 hn, h.2⟩

/-! ### Between and within updates -/

/-- Between updates -/
def Held (P : Info → Prop) (x : Prop) (s : State) : Prop :=
  (∀ j, P (infoOf s.work j)) ∧ (x → Sync s.index fun j => (infoOf s.work j).status)

/-- Within an update of `k` whose record is `w` by now -/
def Mid (P : Info → Prop) (x : Prop) (k : Key) (w : Info) (s : State) : Prop :=
  (∀ j, j ≠ k → P (infoOf s.work j)) ∧ P w ∧ (x → Sync s.index fun j => if j = k then w.status else (infoOf s.work j).status)

variable {P : Info → Prop} {x : Prop}

theorem Held.mid {s : State} (h : Held P x s) (k : Key) : Mid P x k (infoOf s.work k) s := by
  refine ⟨fun j _ => h.1 j, h.1 k, fun hx => ⟨(h.2 hx).nodup, fun n j => ?_⟩⟩
  rw [(h.2 hx).mem n j]
  by_cases hj : j = k
  · subst hj; rw [if_pos rfl]
  · rw [if_neg hj]

theorem Mid.held {k : Key} {w : Info} {s : State} (h : Mid P x k w s) : Held P x { s with work := s.work.set k w } := by
  have e : ∀ j, infoOf (s.work.set k w) j = if j = k then w else infoOf s.work j := fun j => infoOf_set _ _ _ _
  refine ⟨fun j => ?_, fun hx => ⟨(h.2.2 hx).nodup, fun n j => ?_⟩⟩
  · show P (infoOf (s.work.set k w) j)
    rw [e]
    split
    · exact h.2.1
    · rename_i hj; exact h.1 j hj
  · show (n, j) ∈ s.index ↔ 5 ≤ n ∧ (infoOf (s.work.set k w) j).status = n
    rw [e, (h.2.2 hx).mem n j]
    by_cases hj : j = k
    · rw [if_pos hj, if_pos hj]
    · rw [if_neg hj, if_neg hj]

theorem Mid.same {k : Key} {w : Info} {s t : State} (h : Mid P x k w s) (h1 : t.work = s.work) (h2 : t.index = s.index) : Mid P x k w t := by
  unfold Mid
  rw [h1, h2]
  exact h

theorem Held.same {s t : State} (h : Held P x s) (h1 : t.work = s.work) (h2 : t.index = s.index) : Held P x t := by
  unfold Held
  rw [h1, h2]
  exact h

/-- Another record with the same status, or with statuses that are not indexed. -/
theorem Mid.change {k : Key} {v w : Info} {s : State} (h : Mid P x k v s) (hw : P w) (hs : w.status = v.status ∨ (w.status < 5 ∧ v.status < 5)) :
    Mid P x k w s := by
  refine ⟨h.1, hw, fun hx => ⟨(h.2.2 hx).nodup, fun n j => ?_⟩⟩
  rw [(h.2.2 hx).mem n j]
  by_cases hj : j = k
  · rw [if_pos hj, if_pos hj]
    rcases hs with hs | ⟨h1, h2⟩
    · rw [hs]
    · constructor
      · rintro ⟨h5, e⟩; omega
      · rintro ⟨h5, e⟩; omega
  · rw [if_neg hj, if_neg hj]

/-! ### The index -/

theorem mem_reindex {idx : List (Nat × Key)} {old new : Nat} {k : Key} {n : Nat} {j : Key} :
    (n, j) ∈ reindex idx old new k ↔ (5 ≤ new ∧ n = new ∧ j = k) ∨
      ((n, j) ∈ idx ∧ ¬ (5 ≤ old ∧ n = old ∧ j = k) ∧ ¬ (5 ≤ new ∧ n = new ∧ j = k)) := by
  unfold reindex
  rw [List.mem_append, List.mem_filter]
  by_cases h5 : 5 ≤ new <;> by_cases h6 : 5 ≤ old <;> simp [h5, h6] <;> tauto

theorem nodup_reindex {idx : List (Nat × Key)} {old new : Nat} {k : Key} (h : idx.Nodup) : (reindex idx old new k).Nodup := by
  unfold reindex
  rw [List.nodup_append]
  refine ⟨?_, ?_, ?_⟩
  · split <;> simp
  · refine List.Nodup.filter _ ?_
    split
    · exact h.filter _
    · exact h
  · intro a ha b hb hab
    split at ha
    · rename_i h5
      rw [List.mem_singleton] at ha
      have := (List.mem_filter.1 hb).2
      rw [← hab, ha] at this
      simp at this
      omega
    · cases ha

theorem Sync.reindex {idx : List (Nat × Key)} {f : Key → Nat} {old new : Nat} {k : Key} (h : Sync idx f) (hk : f k = old) :
    Sync (reindex idx old new k) fun j => if j = k then new else f j := by
  refine ⟨nodup_reindex h.nodup, fun n j => ?_⟩
  rw [mem_reindex]
  by_cases hj : j = k
  · subst hj
    rw [if_pos rfl]
    constructor
    · rintro (⟨h1, rfl, -⟩ | ⟨h1, h2, -⟩)
      · exact ⟨h1, rfl⟩
      · obtain ⟨h5, e⟩ := (h.mem n j).1 h1
        exact absurd ⟨by omega, by omega, rfl⟩ h2
    · rintro ⟨h5, rfl⟩
      exact .inl ⟨h5, rfl, rfl⟩
  · rw [if_neg hj]
    constructor
    · rintro (⟨-, -, h1⟩ | ⟨h1, -, -⟩)
      · exact absurd h1 hj
      · exact (h.mem n j).1 h1
    · intro h1
      exact .inr ⟨(h.mem n j).2 h1, fun hc => hj hc.2.2, fun hc => hj hc.2.2⟩

theorem setStatus_mid {k : Key} {v w : Info} {n : Nat} {s t : State} (h : setStatus v n k s = (.ok w, t)) (hm : Mid P x k v s)
    (hw : P { v with status := n }) : Mid P x k w t ∧ w = { v with status := n } := by
  have e := setStatus_result h
  unfold setStatus at h
  rw [M.get_bind_ok] at h
  split at h
  · simp at h
    obtain ⟨rfl, rfl⟩ := h
    exact ⟨hm, e⟩
  · rw [M.bind_ok_iff] at h
    obtain ⟨_, s1, h1, h⟩ := h
    simp at h h1
    obtain ⟨rfl, rfl⟩ := h
    rw [← h1]
    refine ⟨⟨hm.1, hw, fun hx => ?_⟩, rfl⟩
    have := (hm.2.2 hx).reindex (k := k) (old := v.status) (new := n) (by rw [if_pos rfl])
    refine ⟨this.nodup, fun m j => ?_⟩
    have := this.mem m j
    dsimp only at this ⊢
    rw [this]
    by_cases hj : j = k
    · rw [if_pos hj, if_pos hj]
    · rw [if_neg hj, if_neg hj, if_neg hj]

/-! ### Computations that touch neither records nor index -/

def Idle {α : Type} (m : Act α) : Prop := ∀ s, (m s).2.work = s.work ∧ (m s).2.index = s.index

theorem Idle.of {α : Type} {m : Act α} {s t : State} {r : Res α} (h : Idle m) (e : m s = (r, t)) : t.work = s.work ∧ t.index = s.index := by
  have := h s
  rw [e] at this; exact this

theorem Idle.bind {α β : Type} {m : Act α} {f : α → Act β} (hm : Idle m) (hf : ∀ a, Idle (f a)) : Idle (m >>= f) := by
  intro s
  have h := hm s
  rw [M.bind_apply]
  rcases hms : m s with ⟨r, t⟩
  rw [hms] at h
  cases r with
  | ok a => exact ⟨(hf a t).1.trans h.1, (hf a t).2.trans h.2⟩
  | err => exact h
  | panic => exact h

theorem Idle.pure {α : Type} (a : α) : Idle (Pure.pure a : Act α) := fun _ => ⟨rfl, rfl⟩
theorem Idle.get : Idle (M.get : Act State) := fun _ => ⟨rfl, rfl⟩
theorem Idle.errIf (c : Bool) : Idle (M.errIf c : Act Unit) := fun s => by cases c <;> exact ⟨rfl, rfl⟩
theorem Idle.panicIf (c : Bool) : Idle (M.panicIf c : Act Unit) := fun s => by cases c <;> exact ⟨rfl, rfl⟩
theorem Idle.orPanic {α : Type} (o : Option α) : Idle (M.orPanic o : Act α) := fun s => by cases o <;> exact ⟨rfl, rfl⟩
theorem Idle.ite {α : Type} {c : Prop} [Decidable c] {a b : Act α} (ha : Idle a) (hb : Idle b) : Idle (if c then a else b) := by
  split <;> assumption
theorem Idle.addCall (e : Event) (k : Key) : Idle (addCall e k) := fun _ => ⟨rfl, rfl⟩

theorem Idle.request (r : Schedule.Req) : Idle (request r) := by
  unfold Referral.request
  intro s
  rw [M.bind_ok (M.get_apply s)]
  cases h : r.exec? s.sched with
  | none => rw [M.bind_panic (M.orPanic_none s)]; exact ⟨rfl, rfl⟩
  | some u => rw [M.bind_ok (M.orPanic_some u s)]; exact ⟨rfl, rfl⟩

theorem Idle.scheduleBanishment (k : Key) (v : Info) : Idle (scheduleBanishment k v) :=
  .bind .get fun _ => .bind (.request _) fun _ => .pure _

theorem Idle.activateSelf (k : Key) (value : Bool) (v : Info) : Idle (activateSelf k value v) := by
  unfold Referral.activateSelf
  refine .bind .get fun s => .bind ?_ fun _ => .pure _
  split
  · exact .ite (.bind (.request _) fun _ => .pure _) (.pure _)
  · exact .pure _

/-! ### The status check -/

theorem meets_none {st : KV Nat Info} {v : Info} {n : Nat} (h : v.activeReferrals = []) (hn : 2 ≤ n) : meets st n v ≠ some true := by
  intro hm
  unfold meets at hm
  rw [if_neg (by omega)] at hm
  split at hm
  · cases hm
  · have hx : ∀ a b c d, reqXByX st v a b c d ≠ some true := by
      intro a b c d hc
      unfold reqXByX at hc
      rw [h] at hc
      unfold xByXLoop at hc
      cases he : enoughCoins v a b with
      | none => rw [he] at hc; cases hc
      | some y => rw [he] at hc; simp at hc
    have hy : ∀ a b c, reqCore st v a b c ≠ some true := by
      intro a b c hc
      unfold reqCore at hc
      rw [h] at hc
      unfold teamsLoop at hc
      cases he : enoughCoins v a b with
      | none => rw [he] at hc; cases hc
      | some y => rw [he] at hc; simp at hc
    split at hm
    · omega
    · exact hx _ _ _ _ hm
    · exact hx _ _ _ _ hm
    · exact hy _ _ _ hm
    · exact hy _ _ _ hm
    · exact hy _ _ _ hm
    · exact hy _ _ _ hm
    · exact hy _ _ _ hm
    · cases hm

theorem highest_none {st : KV Nat Info} {v : Info} {n q r : Nat} (hr : highest st v n q = some r) (h : r ≠ q) (h1 : 2 ≤ r) :
    v.activeReferrals ≠ [] := by
  rcases highest_meets n q r hr with e | e
  · exact absurd e h
  · intro hc
    exact meets_none hc h1 e

theorem checkStatus_mid (hP : Lenient P) {k : Key} {v n : Info} {s t : State} (h : checkStatus k v s = (.ok n, t)) (hm : Mid P x k v s) :
    Mid P x k n t := by
  unfold checkStatus at h
  rw [M.bind_ok_iff] at h
  obtain ⟨v1, s1, h1, h⟩ := h
  have m1 : Mid P x k v1 s1 := by
    split at h1
    · rename_i h8
      rw [M.bind_ok_iff] at h1
      obtain ⟨w, s2, h2, h1⟩ := h1
      obtain ⟨m2, -⟩ := setStatus_mid h2 hm (hP.check v 9 v.downgradeAt hm.2.1 (.inr (.inr (.inl (by omega)))))
      rw [M.bind_ok_iff] at h1
      obtain ⟨_, s3, h3, h1⟩ := h1
      simp at h1
      obtain ⟨rfl, rfl⟩ := h1
      have := (Idle.addCall _ _).of h3
      exact m2.same this.1 this.2
    · simp at h1
      obtain ⟨rfl, rfl⟩ := h1
      exact hm
  rw [M.get_bind_ok, M.orPanic_bind_ok] at h
  obtain ⟨b, hb, h⟩ := h
  split at h
  · dsimp only at h
    rw [M.orPanic_bind_ok] at h
    obtain ⟨r, hr, h⟩ := h
    have m2 : Mid P x k { v1 with downgradeAt := none } s1 :=
      m1.change (hP.check v1 v1.status none m1.2.1 (.inl (le_refl _))) (.inl rfl)
    split at h
    · rename_i hlt
      have hlt : v1.status < r := hlt
      rw [M.bind_ok_iff] at h
      obtain ⟨w, s2, h2, h⟩ := h
      have hp : P { ({ v1 with downgradeAt := none } : Info) with status := r } := by
        refine hP.check v1 r none m1.2.1 ?_
        by_cases h2r : 2 ≤ r
        · have := highest_none hr (by show r ≠ v1.status; omega) h2r
          exact .inr (.inr (.inr this))
        · exact .inr (.inl (by omega))
      obtain ⟨m3, -⟩ := setStatus_mid h2 m2 hp
      rw [M.bind_ok_iff] at h
      obtain ⟨_, s3, h3, h⟩ := h
      simp at h
      obtain ⟨rfl, rfl⟩ := h
      have := (Idle.addCall _ _).of h3
      exact m3.same this.1 this.2
    · simp at h
      obtain ⟨rfl, rfl⟩ := h
      exact m2
  · split at h
    · rw [M.bind_ok_iff] at h
      obtain ⟨_, s2, h2, h⟩ := h
      simp at h
      obtain ⟨rfl, rfl⟩ := h
      have := (Idle.request _).of h2
      refine (m1.same this.1 this.2).change ?_ (.inl rfl)
      exact hP.check v1 v1.status _ m1.2.1 (.inl (le_refl _))
    · simp at h
      obtain ⟨rfl, rfl⟩ := h
      exact m1

/-! ### Updates -/

theorem update_held (hP : Lenient P) {α : Type} {k : Key} {check : Bool} {f : Info → Act (Info × α)} {s t : State} {a : α}
    (h : update k check f s = (.ok a, t))
    (hf : ∀ w s1, f (infoOf s.work k) s = (.ok (w, a), s1) → Mid P x k w s1) : Held P x t := by
  unfold update at h
  rw [recover_ok_iff, M.get_bind_ok, M.bind_ok_iff] at h
  obtain ⟨r, s1, h1, h⟩ := h
  rw [M.bind_ok_iff] at h
  obtain ⟨v, s2, h2, h⟩ := h
  rw [M.bind_ok_iff] at h
  obtain ⟨_, s3, h3, h⟩ := h
  simp at h
  obtain ⟨rfl, rfl⟩ := h
  have m1 := hf r.1 s1 h1
  have h4 : s3 = { s2 with work := s2.work.set k v } := by
    unfold put at h3
    simp at h3
    exact h3.symm
  have key : Mid P x k v s2 := by
    cases check with
    | true =>
      rw [if_pos rfl] at h2
      exact checkStatus_mid hP h2 m1
    | false =>
      rw [if_neg (by simp)] at h2
      simp at h2
      obtain ⟨rfl, rfl⟩ := h2
      exact m1
  rw [h4]
  exact key.held

/-- A callback that touches neither other records nor the index, and leaves the status alone. -/
theorem update_idle (hP : Lenient P) {α : Type} {k : Key} {check : Bool} {f : Info → Act (Info × α)} {s t : State} {a : α}
    (h : update k check f s = (.ok a, t)) (hs : Held P x s) (hi : Idle (f (infoOf s.work k)))
    (hf : ∀ w s1, f (infoOf s.work k) s = (.ok (w, a), s1) → P w ∧ w.status = (infoOf s.work k).status) : Held P x t := by
  refine update_held hP h fun w s1 h1 => ?_
  obtain ⟨e1, e2⟩ := hi.of h1
  obtain ⟨p, e⟩ := hf w s1 h1
  exact ((hs.mid k).same e1 e2).change p (.inl e)

theorem climb_held (hP : Lenient P) {check : Bool} {f : Nat → Key → Info → Act Info} (hi : ∀ l k v, Idle (f l k v))
    (hw : ∀ l k v s w s1, 2 ≤ l → f l k v s = (.ok w, s1) → w = { v with tot := w.tot }) :
    ∀ (n l : Nat) (k : Option Key) (s t : State), 2 ≤ l → climb check f n l k s = (.ok (), t) → Held P x s → Held P x t := by
  intro n
  induction n with
  | zero => intro l k s t _ h hs; simp [climb] at h; rw [← h]; exact hs
  | succ n ih =>
    intro l k s t hl h hs
    cases k with
    | none => simp [climb] at h; rw [← h]; exact hs
    | some k =>
      unfold climb at h
      rw [M.bind_ok_iff] at h
      obtain ⟨next, s1, h1, h⟩ := h
      refine ih (l + 1) next s1 t (by omega) h ?_
      refine update_idle hP h1 hs (.bind (hi _ _ _) fun _ => .pure _) fun w s2 h2 => ?_
      rw [M.bind_ok_iff] at h2
      obtain ⟨w', s3, h3, h2⟩ := h2
      simp at h2
      obtain ⟨⟨rfl, -⟩, -⟩ := h2
      rw [hw l k _ _ _ _ hl h3]
      exact ⟨hP.tot _ _ (hs.1 k), rfl⟩

/-- The first step by itself -/
theorem climb_first (hP : Lenient P) {check : Bool} {f : Nat → Key → Info → Act Info} (hi : ∀ l k v, Idle (f l k v))
    (hw : ∀ l k v s w s1, 2 ≤ l → f l k v s = (.ok w, s1) → w = { v with tot := w.tot }) {n : Nat} {k : Option Key} {s t : State}
    (h : climb check f n 1 k s = (.ok (), t)) (hs : Held P x s)
    (h1 : ∀ a w s1, k = some a → f 1 a (infoOf s.work a) s = (.ok w, s1) → P w ∧ w.status = (infoOf s.work a).status) : Held P x t := by
  cases n with
  | zero => simp [climb] at h; rw [← h]; exact hs
  | succ n =>
    cases k with
    | none => simp [climb] at h; rw [← h]; exact hs
    | some k =>
      unfold climb at h
      rw [M.bind_ok_iff] at h
      obtain ⟨next, s1, h2, h⟩ := h
      refine climb_held hP hi hw n 2 next s1 t (by omega) h ?_
      refine update_idle hP h2 hs (.bind (hi _ _ _) fun _ => .pure _) fun w s2 h3 => ?_
      rw [M.bind_ok_iff] at h3
      obtain ⟨w', s3, h4, h3⟩ := h3
      simp at h3
      obtain ⟨⟨rfl, -⟩, -⟩ := h3
      exact h1 k w' s3 rfl h4

end Verif.Referral
