import Verif.Schedule.Props

/-! Property C98: what the queries of the schedule show is what is going to run.

Model of the query server of /repo/x/schedule, keeper/query_server.go: `Get` (47-72) and `All` (20-45).  The parsing of the two
moments of `Get` out of texts (55-62) is left out; requests are not `nil`. -/
namespace Verif.Schedule

/-- The tasks under the keys from `a` up to, not including, `b`, as `store.Iterator(a, b)` visits them, keeper.go:53-65.  Keys are
compared byte by byte.  The store keeps times instead of keys, see `State`. -/
def between (a b : List Nat) (s : State) : List Task :=
  ((s.store.entries.filter fun e => (key? e.1).any fun k => !decide (k < a) && decide (k < b)).map Prod.snd).flatten

/-- `QueryServer.Get`, keeper/query_server.go:47-72, with `GetTasks`, keeper.go:50-66.  A panic in `Key` is recovered and becomes
an error, `none` (query_server.go:64-69). -/
def queryGet (s : State) (since upto : Int) : Option (List Task) :=
  match key? since, key? upto with
  | some a, some b => some (between a b s)
  | _, _ => none

/-- `QueryServer.All`, keeper/query_server.go:20-45. -/
def queryAll (s : State) : List Task := (s.store.entries.map Prod.snd).flatten

theorem key?_some {t : Int} (h : 0 ≤ t ∧ t < timeEnd) : ∃ k, key? t = some k := by
  obtain ⟨k, hk, _⟩ := C15_key_value t h
  exact ⟨k, hk⟩

/-- Byte order and the order of moments agree, so the answer can be read off the times. -/
theorem queryGet_eq {s : State} (hi : Inv s) {since upto : Int} (h1 : 0 ≤ since ∧ since < timeEnd)
    (h2 : 0 ≤ upto ∧ upto < timeEnd) : queryGet s since upto = some (getTasks s since upto) := by
  obtain ⟨a, ha⟩ := key?_some h1
  obtain ⟨b, hb⟩ := key?_some h2
  simp only [queryGet, ha, hb, between, getTasks, Option.some.injEq]
  congr 2
  apply List.filter_congr
  rintro ⟨T, l⟩ he
  have hT := (hi.bucket _ _ (KV.mem_entries.1 he)).2.1
  have hT' : 0 ≤ T ∧ T < timeEnd := by simpa [inRange] using hT
  obtain ⟨k, hk⟩ := key?_some hT'
  have o1 := (C15_keys_order T since k a hk ha).1
  have o2 := (C15_keys_order T upto k b hk hb).1
  rw [hk, Option.any_some, Bool.eq_iff_iff]
  simp only [Bool.and_eq_true, Bool.not_eq_true', decide_eq_false_iff_not, decide_eq_true_eq, o1, o2, not_lt]

theorem mem_getTasks {s : State} (hi : Inv s) {since upto : Int} {t : Task} :
    t ∈ getTasks s since upto ↔ Pending s t ∧ since ≤ t.time ∧ t.time < upto := by
  simp only [getTasks, List.mem_flatten, List.mem_map, List.mem_filter, decide_eq_true_eq]
  constructor
  · rintro ⟨l, ⟨e, ⟨he, hlt⟩, rfl⟩, hm⟩
    have hg := KV.mem_entries.1 he
    have ht := ((hi.bucket _ _ hg).2.2.2 t hm).1
    exact ⟨⟨e.2, ht ▸ hg, hm⟩, by omega, by omega⟩
  · rintro ⟨⟨l, hl, hm⟩, h1, h2⟩
    exact ⟨l, ⟨(t.time, l), ⟨KV.mem_entries.2 hl, h1, h2⟩, rfl⟩, hm⟩

theorem getTasks_before {s : State} (hi : Inv s) (since upto : Int) : (getTasks s since upto).Pairwise Before := by
  refine flatten_before (s.store.sorted.sublist List.filter_sublist) ?_
  intro e he
  obtain ⟨_, _, h3, h4⟩ := hi.bucket _ _ (KV.mem_entries.1 (List.mem_filter.1 he).1)
  exact ⟨h3, fun t ht => (h4 t ht).1⟩

theorem before_nodup {s : State} (hi : Inv s) {l : List Task} (hb : l.Pairwise Before) (hl : ∀ t ∈ l, Pending s t) :
    (l.map Task.id).Nodup := by
  rw [List.Nodup, List.pairwise_map]
  refine hb.imp_of_mem ?_
  intro a b ha hb hab hid
  have := hi.pending_inj (hl a ha) (hl b hb) hid
  subst this
  rcases hab with h | ⟨_, h⟩ <;> omega

/-- A strictly ordered list is determined by its members. -/
theorem before_unique {a b : List Task} (ha : a.Pairwise Before) (hb : b.Pairwise Before) (h : ∀ t, t ∈ a ↔ t ∈ b) : a = b := by
  have irr : ∀ t : Task, ¬ Before t t := by
    rintro t (h | ⟨_, h⟩) <;> omega
  have na : a.Nodup := ha.imp (fun {x y} (hxy : Before x y) (e : x = y) => irr y (by rw [e] at hxy; exact hxy))
  have nb : b.Nodup := hb.imp (fun {x y} (hxy : Before x y) (e : x = y) => irr y (by rw [e] at hxy; exact hxy))
  have hp : a.Perm b := (List.perm_ext_iff_of_nodup na nb).2 h
  refine hp.eq_of_pairwise ?_ ha hb
  intro x y _ _ h1 h2
  unfold Before at h1 h2
  omega

/-- **C98**: asked for the tasks from `since` to `upto`, both within the years 1970–2262, the query shows exactly the tasks in the
schedule with a time in this period, `since` included and `upto` not, each once, sorted by time and, for the same time, by the
order in which they were requested. -/
theorem C98_get (s : State) (hs : Reachable s) (since upto : Int) (h1 : 0 ≤ since ∧ since < timeEnd)
    (h2 : 0 ≤ upto ∧ upto < timeEnd) : ∃ l, queryGet s since upto = some l ∧
      (∀ t, t ∈ l ↔ Pending s t ∧ since ≤ t.time ∧ t.time < upto) ∧ l.Pairwise Before ∧ (l.map Task.id).Nodup :=
  ⟨_, queryGet_eq hs.inv h1 h2, fun _ => mem_getTasks hs.inv, getTasks_before hs.inv _ _,
    before_nodup hs.inv (getTasks_before hs.inv _ _) fun _ ht => ((mem_getTasks hs.inv).1 ht).1⟩

/-- C98: … and outside these years it shows nothing but an error. -/
theorem C98_out_of_range (s : State) (since upto : Int) :
    queryGet s since upto = none ↔ ¬ (0 ≤ since ∧ since < timeEnd) ∨ ¬ (0 ≤ upto ∧ upto < timeEnd) := by
  by_cases h1 : 0 ≤ since ∧ since < timeEnd
  · by_cases h2 : 0 ≤ upto ∧ upto < timeEnd
    · obtain ⟨a, ha⟩ := key?_some h1
      obtain ⟨b, hb⟩ := key?_some h2
      simp [queryGet, ha, hb, h1, h2]
    · have := C15_out_of_range upto (by omega)
      simp only [queryGet, this, h1, h2]
      cases key? since <;> simp
  · have := C15_out_of_range since (by omega)
    simp [queryGet, this, h1]

/-- **C98**: the tasks shown for the period from the beginning up to the nanosecond after a block's time are those this block runs
if the schedule does not change before it, in the order in which it runs them, whatever the tasks do. -/
theorem C98_next_block (s : State) (hs : Reachable s) (bt : Int) (h0 : 0 ≤ bt) (hbt : bt + 1 < timeEnd) (h : Handlers) :
    queryGet s 0 (bt + 1) = some (performSchedule h bt s).2 := by
  obtain ⟨l, e, m, p, _⟩ := C98_get s hs 0 (bt + 1) ⟨le_refl _, by unfold timeEnd; omega⟩ ⟨by omega, hbt⟩
  rw [e, Option.some.injEq]
  apply before_unique p (log_before hs.inv)
  intro t
  rw [m, mem_log hs.inv]
  constructor
  · rintro ⟨a, _, b⟩; exact ⟨by omega, a⟩
  · rintro ⟨a, b⟩
    obtain ⟨l', hl', _⟩ := id b
    have := (hs.inv.bucket _ _ hl').2.1
    simp only [inRange, decide_eq_true_eq] at this
    exact ⟨b, this.1, by omega⟩

/-- **C98**: reading a period in two parts shows what reading it at once shows. -/
theorem C98_split (s : State) (hs : Reachable s) (a b c : Int) (h0 : 0 ≤ a) (hab : a ≤ b) (hbc : b ≤ c) (hc : c < timeEnd) :
    ∃ x y, queryGet s a b = some x ∧ queryGet s b c = some y ∧ queryGet s a c = some (x ++ y) := by
  obtain ⟨x, ex, mx, px, _⟩ := C98_get s hs a b ⟨h0, by omega⟩ ⟨by omega, by omega⟩
  obtain ⟨y, ey, my, py, _⟩ := C98_get s hs b c ⟨by omega, by omega⟩ ⟨by omega, hc⟩
  obtain ⟨z, ez, mz, pz, _⟩ := C98_get s hs a c ⟨h0, by omega⟩ ⟨by omega, hc⟩
  refine ⟨x, y, ex, ey, ?_⟩
  rw [ez, Option.some.injEq]
  apply before_unique pz
  · rw [List.pairwise_append]
    refine ⟨px, py, fun t ht u hu => ?_⟩
    have h1 := (mx t).1 ht
    have h2 := (my u).1 hu
    exact Or.inl (by omega)
  · intro t
    rw [List.mem_append, mx, my, mz]
    constructor
    · rintro ⟨p, h1, h2⟩
      by_cases h : t.time < b
      · exact Or.inl ⟨p, h1, h⟩
      · exact Or.inr ⟨p, by omega, h2⟩
    · rintro (⟨p, h1, h2⟩ | ⟨p, h1, h2⟩)
      · exact ⟨p, h1, by omega⟩
      · exact ⟨p, by omega, h2⟩

/-- **C98**: the query for everything shows exactly the tasks in the schedule, each once, in the same order. -/
theorem C98_all (s : State) (hs : Reachable s) : (∀ t, t ∈ queryAll s ↔ Pending s t) ∧ (queryAll s).Pairwise Before ∧
    ((queryAll s).map Task.id).Nodup := by
  have hi := hs.inv
  have m : ∀ t, t ∈ queryAll s ↔ Pending s t := by
    intro t
    simp only [queryAll, List.mem_flatten, List.mem_map]
    constructor
    · rintro ⟨l, ⟨e, he, rfl⟩, hm⟩
      have hg := KV.mem_entries.1 he
      exact ⟨e.2, ((hi.bucket _ _ hg).2.2.2 t hm).1 ▸ hg, hm⟩
    · rintro ⟨l, hl, hm⟩
      exact ⟨l, ⟨(t.time, l), KV.mem_entries.2 hl, rfl⟩, hm⟩
  have p : (queryAll s).Pairwise Before := by
    refine flatten_before s.store.sorted ?_
    intro e he
    obtain ⟨_, _, h3, h4⟩ := hi.bucket _ _ (KV.mem_entries.1 he)
    exact ⟨h3, fun t ht => (h4 t ht).1⟩
  exact ⟨m, p, before_nodup hi p fun t ht => (m t).1 ht⟩

/-- C98, in terms of the life of a chain: a task shown by either query at some point runs in the first block that reaches its
time, unless somebody deletes it before (`Leaves`). -/
theorem C98_shown_runs (a b : List Ev) (bt : Int) (h : Handlers) (t : Task) (ht : t ∈ queryAll (run State.empty a).1)
    (hb : ∀ e ∈ b, e.Leaves t) (hd : t.time ≤ bt) : t ∈ (performSchedule h bt (run State.empty (a ++ b)).1).2 := by
  have hs : Reachable (run State.empty a).1 := ⟨a, rfl⟩
  have hp := run_pending (((C98_all _ hs).1 t).1 ht) hb
  have e : (run State.empty (a ++ b)).1 = (run (run State.empty a).1 b).1 := by rw [run_append]
  rw [e]
  have hr : Reachable (run (run State.empty a).1 b).1 := ⟨a ++ b, e.symm⟩
  exact (mem_log hr.inv).2 ⟨hd, hp⟩

/-- Four requests out of order, two for the same time; one is deleted again. -/
def Ex.asked : List Ev := [.req (.schedule 7 1 [4]), .req (.schedule 5 2 []), .req (.schedule 5 1 [9]), .req (.schedule 300 3 []),
  .req (.schedule 5 3 []), .req (.delete 5 2 [])]

theorem C98_example : (queryGet (run State.empty Ex.asked).1 5 300).map (·.map Task.visible) =
      some [(5, 1, [9]), (5, 3, []), (7, 1, [4])] ∧
    (queryGet (run State.empty Ex.asked).1 6 301).map (·.map Task.visible) = some [(7, 1, [4]), (300, 3, [])] ∧
    (queryAll (run State.empty Ex.asked).1).length = 4 ∧ queryGet (run State.empty Ex.asked).1 0 timeEnd = none := by
  decide +kernel

end Verif.Schedule
