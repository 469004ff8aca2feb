import Verif.Schedule.Model
import Mathlib.Tactic.Linarith
import Mathlib.Data.List.Nodup

namespace Verif.Schedule

/-- The task is in the store. -/
def Pending (s : State) (t : Task) : Prop := ∃ l, s.store.get t.time = some l ∧ t ∈ l

structure Inv (s : State) : Prop where
  bucket : ∀ T l, s.store.get T = some l →
    l ≠ [] ∧ inRange T = true ∧ l.Pairwise (fun a b => a.id < b.id) ∧ ∀ t ∈ l, t.time = T ∧ t.id < s.next
  uniq : ∀ T l T' l' t t', s.store.get T = some l → s.store.get T' = some l' → t ∈ l → t' ∈ l' → t.id = t'.id → T = T'

theorem Inv.empty : Inv State.empty := by
  constructor <;> intro T l <;> simp [State.empty]

/-- Later stores only lose tasks or gain newly numbered ones. -/
def Ext (s s' : State) : Prop := s.next ≤ s'.next ∧ ∀ t, Pending s' t → Pending s t ∨ s.next ≤ t.id

theorem Ext.refl (s : State) : Ext s s := ⟨Nat.le_refl _, fun _ h => Or.inl h⟩

theorem Ext.trans {a b c : State} (h : Ext a b) (g : Ext b c) : Ext a c := by
  refine ⟨Nat.le_trans h.1 g.1, fun t ht => ?_⟩
  rcases g.2 t ht with h1 | h1
  · exact h.2 t h1
  · exact Or.inr (Nat.le_trans h.1 h1)

theorem schedule?_spec {s s' : State} {T : Int} {h : Nat} {d : List Nat} (hs : schedule? s T h d = some s') :
    inRange T = true ∧ s'.next = s.next + 1 ∧
    s'.store = s.store.set T ((s.store.get T).getD [] ++ [⟨T, h, d, s.next⟩]) := by
  unfold schedule? at hs
  split at hs
  · next hr => injection hs with hs; subst hs; exact ⟨hr, rfl, rfl⟩
  · simp at hs

theorem schedule?_inv {s s' : State} {T : Int} {h : Nat} {d : List Nat} (hs : schedule? s T h d = some s') (hi : Inv s) :
    Inv s' := by
  obtain ⟨hr, hn, hst⟩ := schedule?_spec hs
  have hb : ∀ t ∈ (s.store.get T).getD [], t.time = T ∧ t.id < s.next := by
    intro t ht
    rcases hg : s.store.get T with _ | l
    · simp [hg] at ht
    · rw [hg] at ht; exact (hi.bucket T l hg).2.2.2 t ht
  constructor
  · intro T' l hl
    rw [hst, KV.get_set] at hl
    by_cases hT : T' = T
    · rw [if_pos hT] at hl; injection hl with hl; subst hl
      refine ⟨by simp, hT ▸ hr, ?_, ?_⟩
      · rw [List.pairwise_append]
        refine ⟨?_, List.pairwise_singleton _ _, ?_⟩
        · rcases hg : s.store.get T with _ | l
          · simp
          · exact (hi.bucket T l hg).2.2.1
        · intro a ha b hb'
          simp only [List.mem_singleton] at hb'
          subst hb'
          exact (hb a ha).2
      · intro t ht
        rcases List.mem_append.1 ht with ht | ht
        · have := hb t ht; rw [hn]; exact ⟨this.1.trans hT.symm, by omega⟩
        · simp only [List.mem_singleton] at ht; subst ht; rw [hn]; exact ⟨hT.symm, by simp⟩
    · rw [if_neg hT] at hl
      obtain ⟨h1, h2, h3, h4⟩ := hi.bucket T' l hl
      refine ⟨h1, h2, h3, fun t ht => ?_⟩
      have := h4 t ht; rw [hn]; exact ⟨this.1, by omega⟩
  · -- a member of a bucket of s' is the new one or a member of the same bucket of s
    have key : ∀ T1 l1 t1, s'.store.get T1 = some l1 → t1 ∈ l1 →
        (T1 = T ∧ t1.id = s.next) ∨ (t1.id < s.next ∧ ∃ l, s.store.get T1 = some l ∧ t1 ∈ l) := by
      intro T1 l1 t1 h1 hm
      rw [hst, KV.get_set] at h1
      by_cases hT : T1 = T
      · rw [if_pos hT] at h1; injection h1 with h1; subst h1
        rcases List.mem_append.1 hm with hm' | hm'
        · right
          rcases hg : s.store.get T with _ | l
          · simp [hg] at hm'
          · rw [hg] at hm'
            exact ⟨((hi.bucket T l hg).2.2.2 t1 hm').2, l, hT ▸ hg, hm'⟩
        · left; simp only [List.mem_singleton] at hm'; subst hm'; exact ⟨hT, rfl⟩
      · rw [if_neg hT] at h1
        exact Or.inr ⟨((hi.bucket T1 l1 h1).2.2.2 t1 hm).2, l1, h1, hm⟩
    intro T1 l1 T2 l2 t1 t2 h1 h2 m1 m2 hid
    rcases key T1 l1 t1 h1 m1 with ⟨a1, b1⟩ | ⟨a1, k1, c1, d1⟩ <;>
      rcases key T2 l2 t2 h2 m2 with ⟨a2, b2⟩ | ⟨a2, k2, c2, d2⟩
    · rw [a1, a2]
    · omega
    · omega
    · exact hi.uniq T1 k1 T2 k2 t1 t2 c1 c2 d1 d2 hid

theorem schedule?_ext {s s' : State} {T : Int} {h : Nat} {d : List Nat} (hs : schedule? s T h d = some s') :
    Ext s s' := by
  obtain ⟨_, hn, hst⟩ := schedule?_spec hs
  refine ⟨by omega, fun t ⟨l, hl, hm⟩ => ?_⟩
  rw [hst, KV.get_set] at hl
  by_cases hT : t.time = T
  · rw [if_pos hT] at hl; injection hl with hl; subst hl
    rcases List.mem_append.1 hm with hm | hm
    · rcases hg : s.store.get T with _ | l
      · simp [hg] at hm
      · rw [hg] at hm; exact Or.inl ⟨l, hT ▸ hg, hm⟩
    · simp only [List.mem_singleton] at hm; subst hm; exact Or.inr (Nat.le_refl _)
  · rw [if_neg hT] at hl; exact Or.inl ⟨l, hl, hm⟩

/-- After `delete` the bucket of every time holds exactly the tasks that did not match. -/
theorem delete?_get {s s' : State} {T : Int} {p : Task → Bool} (hs : delete? s T p = some s') (T' : Int) :
    s'.store.get T' = if T' = T then
      (match s.store.get T with
        | none => none
        | some l => if (l.filter (fun t => !p t)).isEmpty then none else some (l.filter (fun t => !p t)))
      else s.store.get T' := by
  unfold delete? at hs
  by_cases hr : inRange T = true
  · rw [if_pos hr] at hs
    rcases hg : s.store.get T with _ | l
    · rw [hg] at hs; injection hs with hs; subst hs
      by_cases hT : T' = T
      · rw [if_pos hT, hT, hg]
      · rw [if_neg hT]
    · rw [hg] at hs; injection hs with hs; subst hs
      by_cases he : (l.filter (fun t => !p t)).isEmpty = true
      · simp only [if_pos he, KV.get_erase]
      · simp only [if_neg he, KV.get_set]
  · rw [if_neg hr] at hs; simp at hs

theorem delete?_next {s s' : State} {T : Int} {p : Task → Bool} (hs : delete? s T p = some s') :
    s'.next = s.next := by
  unfold delete? at hs
  by_cases hr : inRange T = true
  · rw [if_pos hr] at hs
    rcases hg : s.store.get T with _ | l <;> rw [hg] at hs <;> injection hs with hs <;> subst hs <;> rfl
  · rw [if_neg hr] at hs; simp at hs

theorem delete?_sub {s s' : State} {T : Int} {p : Task → Bool} (hs : delete? s T p = some s') {T' : Int} {l' : List Task}
    (h : s'.store.get T' = some l') : ∃ l, s.store.get T' = some l ∧ l'.Sublist l := by
  rw [delete?_get hs] at h
  by_cases hT : T' = T
  · rw [if_pos hT] at h
    rcases hg : s.store.get T with _ | l
    · rw [hg] at h; simp at h
    · rw [hg] at h
      simp only at h
      by_cases he : (l.filter (fun t => !p t)).isEmpty = true
      · rw [if_pos he] at h; simp at h
      · rw [if_neg he] at h; injection h with h; subst h
        exact ⟨l, hT ▸ hg, List.filter_sublist⟩
  · rw [if_neg hT] at h; exact ⟨l', h, List.Sublist.refl _⟩

theorem delete?_ne {s s' : State} {T : Int} {p : Task → Bool} (hs : delete? s T p = some s') {T' : Int} {l' : List Task}
    (h : s'.store.get T' = some l') (hne : ∀ l, s.store.get T' = some l → l ≠ []) : l' ≠ [] := by
  rw [delete?_get hs] at h
  by_cases hT : T' = T
  · rw [if_pos hT] at h
    rcases hg : s.store.get T with _ | l
    · rw [hg] at h; simp at h
    · rw [hg] at h
      simp only at h
      by_cases he : (l.filter (fun t => !p t)).isEmpty = true
      · rw [if_pos he] at h; simp at h
      · rw [if_neg he] at h; injection h with h; subst h
        simpa using he
  · rw [if_neg hT] at h; exact hne l' h

theorem delete?_inv {s s' : State} {T : Int} {p : Task → Bool} (hs : delete? s T p = some s') (hi : Inv s) : Inv s' := by
  constructor
  · intro T' l' hl
    obtain ⟨l, hg, hsub⟩ := delete?_sub hs hl
    obtain ⟨h1, h2, h3, h4⟩ := hi.bucket T' l hg
    refine ⟨delete?_ne hs hl (fun m hm => (hi.bucket T' m hm).1), h2, h3.sublist hsub, fun t ht => ?_⟩
    rw [delete?_next hs]; exact h4 t (hsub.subset ht)
  · intro T1 l1 T2 l2 t1 t2 h1 h2 m1 m2 hid
    obtain ⟨k1, g1, s1⟩ := delete?_sub hs h1
    obtain ⟨k2, g2, s2⟩ := delete?_sub hs h2
    exact hi.uniq _ _ _ _ _ _ g1 g2 (s1.subset m1) (s2.subset m2) hid

theorem delete?_ext {s s' : State} {T : Int} {p : Task → Bool} (hs : delete? s T p = some s') : Ext s s' := by
  refine ⟨by rw [delete?_next hs], fun t ⟨l, hl, hm⟩ => ?_⟩
  obtain ⟨k, g, hsub⟩ := delete?_sub hs hl
  exact Or.inl ⟨k, g, hsub.subset hm⟩

theorem exec?_inv {s s' : State} {r : Req} (h : r.exec? s = some s') (hi : Inv s) : Inv s' := by
  cases r <;> first | exact schedule?_inv h hi | exact delete?_inv h hi

theorem exec?_ext {s s' : State} {r : Req} (h : r.exec? s = some s') : Ext s s' := by
  cases r <;> first | exact schedule?_ext h | exact delete?_ext h

theorem execReqs_inv {s : State} (rs : List Req) (hi : Inv s) : Inv (execReqs s rs) := by
  induction rs generalizing s with
  | nil => exact hi
  | cons r rs ih =>
    unfold execReqs
    rcases h : r.exec? s with _ | s'
    · exact hi
    · exact ih (exec?_inv h hi)

theorem execReqs_ext (s : State) (rs : List Req) : Ext s (execReqs s rs) := by
  induction rs generalizing s with
  | nil => exact Ext.refl s
  | cons r rs ih =>
    unfold execReqs
    rcases h : r.exec? s with _ | s'
    · exact Ext.refl s
    · exact (exec?_ext h).trans (ih s')

theorem runTask_inv {h : Handlers} {i : Nat} {s : State} {t : Task} (hi : Inv s) : Inv (runTask h i s t) := by
  unfold runTask; split
  · exact hi
  · exact execReqs_inv _ hi

theorem runTask_ext (h : Handlers) (i : Nat) (s : State) (t : Task) : Ext s (runTask h i s t) := by
  unfold runTask; split
  · exact Ext.refl s
  · exact execReqs_ext _ _

theorem runTasks_inv {h : Handlers} {i : Nat} {s : State} (l : List Task) (hi : Inv s) : Inv (runTasks h i s l).1 := by
  induction l generalizing i s with
  | nil => exact hi
  | cons t ts ih => exact ih (runTask_inv hi)

theorem runTasks_ext (h : Handlers) (i : Nat) (s : State) (l : List Task) : Ext s (runTasks h i s l).1 := by
  induction l generalizing i s with
  | nil => exact Ext.refl s
  | cons t ts ih => exact (runTask_ext h i s t).trans (ih (i + 1) _)

theorem runTasks_log (h : Handlers) (i : Nat) (s : State) (l : List Task) : (runTasks h i s l).2 = l := by
  induction l generalizing i s with
  | nil => rfl
  | cons t ts ih => simp [runTasks, ih]

theorem get_eraseAll (m : KV Int (List Task)) (ks : List Int) (T : Int) :
    (eraseAll m ks).get T = if T ∈ ks then none else m.get T := by
  induction ks generalizing m with
  | nil => simp [eraseAll]
  | cons k ks ih =>
    rw [eraseAll, ih, KV.get_erase]
    by_cases h1 : T = k <;> by_cases h2 : T ∈ ks <;> simp [h1, h2]

/-- The keys processed in a block. -/
def dueKeys (bt : Int) (s : State) : List Int := (s.store.entries.filter (fun e => decide (e.1 < bt + 1))).map Prod.fst

theorem mem_dueKeys {bt : Int} {s : State} {T : Int} : T ∈ dueKeys bt s ↔ T ≤ bt ∧ ∃ l, s.store.get T = some l := by
  unfold dueKeys
  simp only [List.mem_map, List.mem_filter, decide_eq_true_eq]
  constructor
  · rintro ⟨e, ⟨he, hlt⟩, rfl⟩
    exact ⟨by omega, e.2, KV.mem_entries.1 he⟩
  · rintro ⟨hle, l, hl⟩
    exact ⟨(T, l), ⟨KV.mem_entries.2 hl, by simp; omega⟩, rfl⟩

theorem performSchedule_get (h : Handlers) (bt : Int) (s : State) (T : Int) :
    (performSchedule h bt s).1.store.get T = if T ∈ dueKeys bt s then none else
      (runTasks h 0 s ((s.store.entries.filter (fun e => decide (e.1 < bt + 1))).map Prod.snd).flatten).1.store.get T :=
  get_eraseAll _ _ _

theorem performSchedule_inv {h : Handlers} {bt : Int} {s : State} (hi : Inv s) : Inv (performSchedule h bt s).1 := by
  have hr : Inv (runTasks h 0 s ((s.store.entries.filter (fun e => decide (e.1 < bt + 1))).map Prod.snd).flatten).1 :=
    runTasks_inv _ hi
  have hsub : ∀ T l, (performSchedule h bt s).1.store.get T = some l →
      (runTasks h 0 s ((s.store.entries.filter (fun e => decide (e.1 < bt + 1))).map Prod.snd).flatten).1.store.get T
        = some l := by
    intro T l hl
    rw [performSchedule_get] at hl
    by_cases hT : T ∈ dueKeys bt s
    · rw [if_pos hT] at hl; simp at hl
    · rwa [if_neg hT] at hl
  exact ⟨fun T l hl => hr.bucket T l (hsub T l hl),
    fun T1 l1 T2 l2 t1 t2 h1 h2 => hr.uniq T1 l1 T2 l2 t1 t2 (hsub _ _ h1) (hsub _ _ h2)⟩

theorem performSchedule_ext (h : Handlers) (bt : Int) (s : State) : Ext s (performSchedule h bt s).1 := by
  have := runTasks_ext h 0 s ((s.store.entries.filter (fun e => decide (e.1 < bt + 1))).map Prod.snd).flatten
  refine ⟨this.1, fun t ⟨l, hl, hm⟩ => this.2 t ⟨l, ?_, hm⟩⟩
  rw [performSchedule_get] at hl
  by_cases hT : t.time ∈ dueKeys bt s
  · rw [if_pos hT] at hl; simp at hl
  · rwa [if_neg hT] at hl

theorem performSchedule_log (h : Handlers) (bt : Int) (s : State) :
    (performSchedule h bt s).2 = ((s.store.entries.filter (fun e => decide (e.1 < bt + 1))).map Prod.snd).flatten :=
  runTasks_log _ _ _ _

theorem mem_log {h : Handlers} {bt : Int} {s : State} (hi : Inv s) {t : Task} :
    t ∈ (performSchedule h bt s).2 ↔ t.time ≤ bt ∧ Pending s t := by
  rw [performSchedule_log]
  simp only [List.mem_flatten, List.mem_map, List.mem_filter, decide_eq_true_eq]
  constructor
  · rintro ⟨l, ⟨e, ⟨he, hlt⟩, rfl⟩, hm⟩
    have hg := KV.mem_entries.1 he
    have := (hi.bucket _ _ hg).2.2.2 t hm
    exact ⟨by omega, e.2, this.1 ▸ hg, hm⟩
  · rintro ⟨hle, l, hl, hm⟩
    exact ⟨l, ⟨(t.time, l), ⟨KV.mem_entries.2 hl, by simp; omega⟩, rfl⟩, hm⟩

/-- Order of execution: by time, then by number of the scheduling request. -/
def Before (a b : Task) : Prop := a.time < b.time ∨ (a.time = b.time ∧ a.id < b.id)

theorem flatten_before {es : List (Int × List Task)} (hs : es.Pairwise (fun a b => a.1 < b.1))
    (hb : ∀ e ∈ es, e.2.Pairwise (fun a b => a.id < b.id) ∧ ∀ t ∈ e.2, t.time = e.1) :
    (es.map Prod.snd).flatten.Pairwise Before := by
  induction es with
  | nil => simp
  | cons e es ih =>
    rw [List.pairwise_cons] at hs
    obtain ⟨hp, ht⟩ := hb e (by simp)
    simp only [List.map_cons, List.flatten_cons, List.pairwise_append]
    refine ⟨?_, ih hs.2 (fun e' he' => hb e' (by simp [he'])), ?_⟩
    · refine hp.imp_of_mem ?_
      intro a b ha hb' hlt
      exact Or.inr ⟨(ht a ha).trans (ht b hb').symm, hlt⟩
    · intro a ha b hb'
      simp only [List.mem_flatten, List.mem_map] at hb'
      obtain ⟨l, ⟨e', he', rfl⟩, hm⟩ := hb'
      have h1 := ht a ha
      have h2 := (hb e' (by simp [he'])).2 b hm
      have h3 := hs.1 e' he'
      exact Or.inl (by rw [h1, h2]; exact h3)

theorem log_before {h : Handlers} {bt : Int} {s : State} (hi : Inv s) :
    (performSchedule h bt s).2.Pairwise Before := by
  rw [performSchedule_log]
  refine flatten_before (s.store.sorted.sublist List.filter_sublist) ?_
  intro e he
  have hg := KV.mem_entries.1 (List.mem_filter.1 he).1
  obtain ⟨_, _, h3, h4⟩ := hi.bucket _ _ hg
  exact ⟨h3, fun t ht => (h4 t ht).1⟩

theorem Inv.pending_inj {s : State} (hi : Inv s) {a b : Task} (ha : Pending s a) (hb : Pending s b) (h : a.id = b.id) :
    a = b := by
  obtain ⟨l, hl, hm⟩ := ha
  obtain ⟨k, hk, hn⟩ := hb
  have ht := hi.uniq _ _ _ _ _ _ hl hk hm hn h
  rw [ht, hk] at hl
  injection hl with hl; subst hl
  have hp := (hi.bucket _ _ hk).2.2.1
  have hp' : (k.map Task.id).Nodup := by
    rw [List.Nodup, List.pairwise_map]
    exact hp.imp (fun h => Nat.ne_of_lt h)
  exact List.inj_on_of_nodup_map hp' hm hn h

theorem log_nodup {h : Handlers} {bt : Int} {s : State} (hi : Inv s) :
    ((performSchedule h bt s).2.map Task.id).Nodup := by
  rw [List.Nodup, List.pairwise_map]
  refine (log_before (h := h) (bt := bt) hi).imp_of_mem ?_
  intro a b ha hb hab hid
  have := hi.pending_inj ((mem_log hi).1 ha).2 ((mem_log hi).1 hb).2 hid
  subst this
  rcases hab with h | ⟨_, h⟩ <;> omega

theorem pending_lt {s : State} (hi : Inv s) {t : Task} (h : Pending s t) : t.id < s.next := by
  obtain ⟨l, hl, hm⟩ := h
  exact ((hi.bucket _ _ hl).2.2.2 t hm).2

/-- After the block none of the tasks it ran is pending (not even under another time). -/
theorem log_not_pending {h : Handlers} {bt : Int} {s : State} (hi : Inv s) {t u : Task}
    (ht : t ∈ (performSchedule h bt s).2) (hu : Pending (performSchedule h bt s).1 u) : u.id ≠ t.id := by
  intro hid
  have ht' := (mem_log hi).1 ht
  rcases (performSchedule_ext h bt s).2 u hu with hp | hp
  · have := hi.pending_inj hp ht'.2 hid
    subst this
    obtain ⟨l, hl, _⟩ := hu
    rw [performSchedule_get, if_pos] at hl
    · simp at hl
    · exact mem_dueKeys.2 ⟨ht'.1, let ⟨k, hk, _⟩ := ht'.2; ⟨k, hk⟩⟩
  · have := pending_lt hi ht'.2; omega

/-! Executions -/

theorem step_inv {s : State} (e : Ev) (hi : Inv s) : Inv (step s e).1 := by
  cases e with
  | req r =>
    simp only [step]
    rcases h : r.exec? s with _ | s'
    · exact hi
    · exact exec?_inv h hi
  | block bt h => exact performSchedule_inv hi

theorem step_ext (s : State) (e : Ev) : Ext s (step s e).1 := by
  cases e with
  | req r =>
    simp only [step]
    rcases h : r.exec? s with _ | s'
    · exact Ext.refl s
    · exact exec?_ext h
  | block bt h => exact performSchedule_ext h bt s

theorem run_inv {s : State} (es : List Ev) (hi : Inv s) : Inv (run s es).1 := by
  induction es generalizing s with
  | nil => exact hi
  | cons e es ih => exact ih (step_inv e hi)

theorem run_ext (s : State) (es : List Ev) : Ext s (run s es).1 := by
  induction es generalizing s with
  | nil => exact Ext.refl s
  | cons e es ih => exact (step_ext s e).trans (ih _)

theorem run_append (s : State) (a b : List Ev) :
    run s (a ++ b) = ((run (run s a).1 b).1, (run s a).2 ++ (run (run s a).1 b).2) := by
  induction a generalizing s with
  | nil => simp [run]
  | cons e a ih => simp [run, ih, List.append_assoc]

/-- Everything logged in one step was pending before with due time not after the block time. -/
theorem step_log {s : State} {e : Ev} (hi : Inv s) {bt : Int} {t : Task} (h : (bt, t) ∈ (step s e).2) :
    t.time ≤ bt ∧ Pending s t := by
  cases e with
  | req r => simp [step] at h
  | block bt' hd =>
    simp only [step, List.mem_map, Prod.mk.injEq] at h
    obtain ⟨u, hu, rfl, rfl⟩ := h
    exact (mem_log hi).1 hu

/-- A task run in a later execution was pending at its beginning or scheduled since. -/
theorem run_log {s : State} {es : List Ev} (hi : Inv s) {bt : Int} {t : Task} (h : (bt, t) ∈ (run s es).2) :
    t.time ≤ bt ∧ (Pending s t ∨ s.next ≤ t.id) := by
  induction es generalizing s with
  | nil => simp [run] at h
  | cons e es ih =>
    simp only [run, List.mem_append] at h
    rcases h with h | h
    · exact ⟨(step_log hi h).1, Or.inl (step_log hi h).2⟩
    · obtain ⟨h1, h2⟩ := ih (step_inv e hi) h
      refine ⟨h1, ?_⟩
      rcases h2 with h2 | h2
      · exact (step_ext s e).2 t h2
      · exact Or.inr (Nat.le_trans (step_ext s e).1 h2)

theorem step_log_not_later {s : State} {e : Ev} (hi : Inv s) {bt : Int} {t : Task} (h : (bt, t) ∈ (step s e).2)
    {es : List Ev} {bt' : Int} {u : Task} (hu : (bt', u) ∈ (run (step s e).1 es).2) : u.id ≠ t.id := by
  intro hid
  have hp := (step_log hi h).2
  rcases (run_log (step_inv e hi) hu).2 with h2 | h2
  · cases e with
    | req r => simp [step] at h
    | block b hd =>
      simp only [step, List.mem_map, Prod.mk.injEq] at h
      obtain ⟨v, hv, rfl, rfl⟩ := h
      exact log_not_pending hi hv h2 hid
  · have := pending_lt hi hp
    have := (step_ext s e).1
    omega

theorem run_nodup {s : State} (es : List Ev) (hi : Inv s) : ((run s es).2.map (fun p => p.2.id)).Nodup := by
  induction es generalizing s with
  | nil => simp [run]
  | cons e es ih =>
    simp only [run, List.map_append]
    rw [List.nodup_append]
    refine ⟨?_, ih (step_inv e hi), ?_⟩
    · cases e with
      | req r => simp [step]
      | block bt h =>
        simp only [step, List.map_map]
        exact log_nodup hi
    · intro a ha b hb hab
      obtain ⟨⟨b1, t⟩, ht, rfl⟩ := List.mem_map.1 ha
      obtain ⟨⟨b2, u⟩, hu, rfl⟩ := List.mem_map.1 hb
      exact step_log_not_later hi ht hu hab.symm

/-! Survival of a pending task -/

/-- The request does not ask to delete `x`. -/
def Req.Spares (x : Task) : Req → Prop
  | .schedule _ _ _ => True
  | .delete T h d => ¬ (T = x.time ∧ h = x.handler ∧ d = x.data)
  | .deleteAll T h => ¬ (T = x.time ∧ h = x.handler)

theorem delete?_pending {s s' : State} {T : Int} {p : Task → Bool} (hs : delete? s T p = some s') {x : Task}
    (hp : Pending s x) (hx : ¬ (T = x.time ∧ p x = true)) : Pending s' x := by
  obtain ⟨l, hl, hm⟩ := hp
  by_cases hT : x.time = T
  · have hpx : p x = false := by
      rcases h : p x with _ | _
      · rfl
      · exact absurd ⟨hT.symm, h⟩ hx
    have hm' : x ∈ l.filter (fun t => !p t) := List.mem_filter.2 ⟨hm, by simp [hpx]⟩
    refine ⟨l.filter (fun t => !p t), ?_, hm'⟩
    rw [delete?_get hs, if_pos hT, ← hT, hl]
    simp only
    rw [if_neg]
    intro he
    rw [List.isEmpty_iff] at he
    rw [he] at hm'
    simp at hm'
  · exact ⟨l, by rw [delete?_get hs, if_neg hT]; exact hl, hm⟩

theorem exec?_pending {s s' : State} {r : Req} (h : r.exec? s = some s') {x : Task} (hp : Pending s x)
    (hx : r.Spares x) : Pending s' x := by
  cases r with
  | schedule T hd d =>
    obtain ⟨_, _, hst⟩ := schedule?_spec h
    obtain ⟨l, hl, hm⟩ := hp
    by_cases hT : x.time = T
    · refine ⟨_, by rw [hst, KV.get_set, if_pos hT], ?_⟩
      rw [← hT, hl]; exact List.mem_append_left _ hm
    · exact ⟨l, by rw [hst, KV.get_set, if_neg hT]; exact hl, hm⟩
  | delete T hd d =>
    refine delete?_pending h hp ?_
    rintro ⟨h1, h2⟩
    simp only [Bool.and_eq_true, beq_iff_eq] at h2
    exact hx ⟨h1, h2.1.symm, h2.2.symm⟩
  | deleteAll T hd =>
    refine delete?_pending h hp ?_
    rintro ⟨h1, h2⟩
    simp only [beq_iff_eq] at h2
    exact hx ⟨h1, h2.symm⟩

theorem execReqs_pending {s : State} {rs : List Req} {x : Task} (hp : Pending s x) (hx : ∀ r ∈ rs, r.Spares x) :
    Pending (execReqs s rs) x := by
  induction rs generalizing s with
  | nil => exact hp
  | cons r rs ih =>
    unfold execReqs
    rcases h : r.exec? s with _ | s'
    · exact hp
    · exact ih (exec?_pending h hp (hx r (by simp))) (fun r' hr' => hx r' (by simp [hr']))

/-- No handler call of the block asks to delete `x`. -/
def HandlersSpare (x : Task) (h : Handlers) : Prop :=
  ∀ i t s reqs p, h i t s = some (reqs, p) → ∀ r ∈ reqs, r.Spares x

theorem runTask_pending {h : Handlers} {i : Nat} {s : State} {t x : Task} (hp : Pending s x)
    (hx : ∀ reqs p, h i t s = some (reqs, p) → ∀ r ∈ reqs, r.Spares x) : Pending (runTask h i s t) x := by
  unfold runTask
  split
  · exact hp
  · next reqs p hh => exact execReqs_pending hp (hx reqs p hh)

theorem runTasks_pending {h : Handlers} {i : Nat} {s : State} {l : List Task} {x : Task} (hp : Pending s x)
    (hx : ∀ j t s reqs p, i ≤ j → h j t s = some (reqs, p) → ∀ r ∈ reqs, r.Spares x) :
    Pending (runTasks h i s l).1 x := by
  induction l generalizing i s with
  | nil => exact hp
  | cons t ts ih =>
    exact ih (runTask_pending hp (fun reqs p => hx i t s reqs p (Nat.le_refl _)))
      (fun j t s reqs p hj => hx j t s reqs p (by omega))

theorem performSchedule_pending_of {h : Handlers} {bt : Int} {s : State} {x : Task}
    (hp : Pending (runTasks h 0 s
      ((s.store.entries.filter (fun e => decide (e.1 < bt + 1))).map Prod.snd).flatten).1 x)
    (hb : bt < x.time) : Pending (performSchedule h bt s).1 x := by
  obtain ⟨l, hl, hm⟩ := hp
  refine ⟨l, ?_, hm⟩
  rw [performSchedule_get, if_neg]
  · exact hl
  · rw [mem_dueKeys]; rintro ⟨h1, _⟩; omega

/-- The event neither asks to delete `x` nor is a block reaching its time. -/
def Ev.Leaves (x : Task) : Ev → Prop
  | .req r => r.Spares x
  | .block bt h => bt < x.time ∧ HandlersSpare x h

theorem step_pending {s : State} {e : Ev} {x : Task} (hp : Pending s x) (he : e.Leaves x) : Pending (step s e).1 x := by
  cases e with
  | req r =>
    simp only [step]
    rcases h : r.exec? s with _ | s'
    · exact hp
    · exact exec?_pending h hp he
  | block bt h =>
    exact performSchedule_pending_of (runTasks_pending hp (fun j t s reqs p _ => he.2 j t s reqs p)) he.1

theorem run_pending {s : State} {es : List Ev} {x : Task} (hp : Pending s x) (he : ∀ e ∈ es, e.Leaves x) :
    Pending (run s es).1 x := by
  induction es generalizing s with
  | nil => exact hp
  | cons e es ih => exact ih (step_pending hp (he e (by simp))) (fun e' h' => he e' (by simp [h']))

end Verif.Schedule
