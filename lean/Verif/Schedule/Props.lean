import Verif.Schedule.Lemmas

/-! Properties C13–C17: the task schedule. -/
namespace Verif.Schedule

/-- States the chain can get into. -/
def Reachable (s : State) : Prop := ∃ es, s = (run State.empty es).1

theorem Reachable.inv {s : State} (h : Reachable s) : Inv s := by
  obtain ⟨es, rfl⟩ := h
  exact run_inv es Inv.empty

/-! ### C13 -/

/-- C13, "never early, never twice": whatever transactions request, whatever the block times are and whatever the
handlers do (including scheduling and deleting tasks and panicking), in the whole log of executed tasks no scheduling
request occurs twice and none occurs in a block before its time. -/
theorem C13_never_early_never_twice (es : List Ev) :
    ((run State.empty es).2.map (fun p => p.2.id)).Nodup ∧
    ∀ bt t, (bt, t) ∈ (run State.empty es).2 → t.time ≤ bt :=
  ⟨run_nodup es Inv.empty, fun _ _ h => (run_log Inv.empty h).1⟩

/-- C13, "exactly once, in the first block that reaches its time": let `x` be pending after some execution `a`, let the
events `b` neither delete it nor be blocks reaching its time, and let the next block reach its time.  Then `x` runs in
that block, and in the whole execution – whatever follows – that is its only run. -/
theorem C13_runs_in_first_due_block (a b c : List Ev) (bt : Int) (h : Handlers) (x : Task)
    (hp : Pending (run State.empty a).1 x) (hb : ∀ e ∈ b, e.Leaves x) (hbt : x.time ≤ bt) :
    x ∈ (performSchedule h bt (run State.empty (a ++ b)).1).2 ∧
    (run State.empty (a ++ b ++ Ev.block bt h :: c)).2.filter (fun p => p.2.id == x.id) = [(bt, x)] := by
  have hs : Inv (run State.empty (a ++ b)).1 := run_inv _ Inv.empty
  have hp' : Pending (run State.empty (a ++ b)).1 x := by rw [run_append]; exact run_pending hp hb
  have hx : x ∈ (performSchedule h bt (run State.empty (a ++ b)).1).2 := (mem_log hs).2 ⟨hbt, hp'⟩
  refine ⟨hx, ?_⟩
  have hnd := (C13_never_early_never_twice (a ++ b ++ Ev.block bt h :: c)).1
  have hm : (bt, x) ∈ (run State.empty (a ++ b ++ Ev.block bt h :: c)).2 := by
    rw [run_append (a := a ++ b)]
    simp only [run, step]
    refine List.mem_append_right _ (List.mem_append_left _ ?_)
    exact List.mem_map.2 ⟨x, hx, rfl⟩
  generalize (run State.empty (a ++ b ++ Ev.block bt h :: c)).2 = L at hnd hm
  obtain ⟨l1, l2, rfl⟩ := List.append_of_mem hm
  simp only [List.map_append, List.map_cons] at hnd
  rw [List.nodup_append] at hnd
  obtain ⟨_, h2, h3⟩ := hnd
  rw [List.nodup_cons] at h2
  have e1 : l1.filter (fun p => p.2.id == x.id) = [] := by
    rw [List.filter_eq_nil_iff]
    intro p hp heq
    exact h3 p.2.id (List.mem_map.2 ⟨p, hp, rfl⟩) x.id (by simp) (by simpa using heq)
  have e2 : l2.filter (fun p => p.2.id == x.id) = [] := by
    rw [List.filter_eq_nil_iff]
    intro p hp heq
    exact h2.1 (List.mem_map.2 ⟨p, hp, by simpa using heq⟩)
  simp [List.filter_append, e1, e2]

/-- C13: as long as no block reaches its time a pending task does not run. -/
theorem C13_waits (a b : List Ev) (x : Task) (hp : Pending (run State.empty a).1 x)
    (hb : ∀ e ∈ b, ∀ bt h, e = Ev.block bt h → bt < x.time) :
    ∀ bt t, (bt, t) ∈ (run State.empty (a ++ b)).2 → t.id ≠ x.id := by
  intro bt t ht hid
  rw [run_append] at ht
  rcases List.mem_append.1 ht with ht | ht
  · -- a run in `a` would contradict being pending afterwards
    have key : ∀ (es : List Ev) (s : State), Inv s → ∀ u, (bt, u) ∈ (run s es).2 → ∀ y, Pending (run s es).1 y →
        y.id ≠ u.id := by
      intro es
      induction es with
      | nil => intro s _ u hu; simp [run] at hu
      | cons e es ih =>
        intro s hi u hu y hy
        simp only [run, List.mem_append] at hu hy
        rcases hu with hu | hu
        · intro hid
          have hpu := (step_log hi hu).2
          rcases (run_ext (step s e).1 es).2 y hy with h1 | h1
          · cases e with
            | req r => simp [step] at hu
            | block b' hd =>
              simp only [step, List.mem_map, Prod.mk.injEq] at hu
              obtain ⟨v, hv, rfl, rfl⟩ := hu
              exact log_not_pending hi hv h1 hid
          · have := pending_lt hi hpu
            have := (step_ext s e).1
            omega
        · exact ih _ (step_inv e hi) u hu y hy
    exact key a State.empty Inv.empty t ht x hp hid.symm
  · have hinv : Inv (run State.empty a).1 := run_inv a Inv.empty
    have key : ∀ (es : List Ev) (s : State), Inv s → (∀ e ∈ es, ∀ bt h, e = Ev.block bt h → bt < x.time) →
        x.id < s.next → (∀ y, Pending s y → y.id = x.id → y.time = x.time) → (bt, t) ∈ (run s es).2 → False := by
      intro es
      induction es with
      | nil => intro s _ _ _ _ h; simp [run] at h
      | cons e es ih =>
        intro s hi hes hn hpx h
        simp only [run, List.mem_append] at h
        rcases h with h | h
        · cases e with
          | req r => simp [step] at h
          | block b' hd =>
            simp only [step, List.mem_map, Prod.mk.injEq] at h
            obtain ⟨v, hv, rfl, rfl⟩ := h
            have h1 := (mem_log hi).1 hv
            have h2 := hpx v h1.2 hid
            have h3 := hes (Ev.block b' hd) (by simp) b' hd rfl
            omega
        · refine ih _ (step_inv e hi) (fun e' h' => hes e' (by simp [h'])) ?_ ?_ h
          · have := (step_ext s e).1; omega
          · intro y hy hyid
            rcases (step_ext s e).2 y hy with h1 | h1
            · exact hpx y h1 hyid
            · omega
    refine key b _ hinv hb (pending_lt hinv hp) ?_ ht
    intro y hy hyid
    rw [hinv.pending_inj hy hp hyid]

/-- C13: a scheduling request for a supported time always succeeds and makes its task pending. -/
theorem C13_request_makes_pending (s : State) (T : Int) (hd : Nat) (d : List Nat) (hT : 0 ≤ T ∧ T < timeEnd) :
    Pending (step s (.req (.schedule T hd d))).1 ⟨T, hd, d, s.next⟩ := by
  have hr : inRange T = true := by simp [inRange, hT.1, hT.2]
  simp only [step, Req.exec?, schedule?, if_pos hr, Option.getD_some]
  exact ⟨_, KV.get_set_self _ _ _, by simp⟩

/-- C13 for tasks scheduled by a running task: if the handler of one of the due tasks (call number `i`) schedules `x`
for a later time, after and before other requests that do not delete it, and no other handler deletes it, then `x` is
pending after the block – even if that handler panics afterwards. -/
theorem C13_handler_request_makes_pending (s : State) (bt : Int) (h : Handlers) (i : Nat) (T : Int) (hd : Nat)
    (d : List Nat) (hT : 0 ≤ T ∧ T < timeEnd) (hlater : bt < T)
    (hi : i < (performSchedule h bt s).2.length)
    (hcall : ∀ t s', ∃ pre post p, h i t s' = some (pre ++ Req.schedule T hd d :: post, p) ∧
      (∀ r ∈ pre, ∀ s'', (r.exec? s'').isSome) ∧ ∀ r ∈ post, ∀ n, r.Spares ⟨T, hd, d, n⟩)
    (hothers : ∀ j t s' reqs p, j ≠ i → h j t s' = some (reqs, p) → ∀ r ∈ reqs, ∀ n, r.Spares ⟨T, hd, d, n⟩) :
    ∃ n, s.next ≤ n ∧ Pending (performSchedule h bt s).1 ⟨T, hd, d, n⟩ := by
  have hr : inRange T = true := by simp [inRange, hT.1, hT.2]
  have hpre : ∀ (pre : List Req) (s' : State) (post : List Req), (∀ r ∈ pre, ∀ s'', (r.exec? s'').isSome) →
      (∀ r ∈ post, ∀ n, r.Spares ⟨T, hd, d, n⟩) →
      ∃ n, s'.next ≤ n ∧ Pending (execReqs s' (pre ++ Req.schedule T hd d :: post)) ⟨T, hd, d, n⟩ := by
    intro pre
    induction pre with
    | nil =>
      intro s' post _ hpost
      refine ⟨s'.next, Nat.le_refl _, ?_⟩
      simp only [List.nil_append, execReqs, Req.exec?, schedule?, if_pos hr]
      exact execReqs_pending ⟨_, KV.get_set_self _ _ _, by simp⟩ (fun r hr' => hpost r hr' _)
    | cons r pre ih =>
      intro s' post h1 h2
      simp only [List.cons_append, execReqs]
      obtain ⟨s'', hs''⟩ := Option.isSome_iff_exists.1 (h1 r (by simp) s')
      rw [hs'']
      obtain ⟨n, hn, hp⟩ := ih s'' post (fun r' hr' => h1 r' (by simp [hr'])) h2
      exact ⟨n, Nat.le_trans (exec?_ext hs'').1 hn, hp⟩
  have hrun : ∀ (l : List Task) (k : Nat) (s' : State), k ≤ i → i < k + l.length →
      ∃ n, s'.next ≤ n ∧ Pending (runTasks h k s' l).1 ⟨T, hd, d, n⟩ := by
    intro l
    induction l with
    | nil => intro k s' h1 h2; simp at h2; omega
    | cons t ts ih =>
      intro k s' h1 h2
      simp only [runTasks]
      by_cases hk : k = i
      · subst hk
        obtain ⟨pre, post, p, hc, hc1, hc2⟩ := hcall t s'
        obtain ⟨n, hn, hp⟩ := hpre pre s' post hc1 hc2
        refine ⟨n, hn, runTasks_pending ?_ (fun j t s reqs p hj hh r hr' => hothers j t s reqs p (by omega) hh r hr' n)⟩
        simpa [runTask, hc] using hp
      · obtain ⟨n, hn, hp⟩ := ih (k + 1) (runTask h k s' t) (by omega) (by simp only [List.length_cons] at h2; omega)
        exact ⟨n, Nat.le_trans (runTask_ext h k s' t).1 hn, hp⟩
  rw [performSchedule_log] at hi
  obtain ⟨n, hn, hp⟩ := hrun _ 0 s (Nat.zero_le _) (by rw [Nat.zero_add]; exact hi)
  exact ⟨n, hn, performSchedule_pending_of hp hlater⟩

/-- C13, "unless it is deleted before": a deleted task never runs, whatever follows. -/
theorem C13_deleted_never_runs (s : State) (hs : Reachable s) (x : Task) (hp : Pending s x) (es : List Ev) :
    (∀ bt t, (bt, t) ∈ (run (step s (.req (.delete x.time x.handler x.data))).1 es).2 → t.id ≠ x.id) ∧
    (∀ bt t, (bt, t) ∈ (run (step s (.req (.deleteAll x.time x.handler))).1 es).2 → t.id ≠ x.id) := by
  have hi := hs.inv
  have key : ∀ (r : Req) (p : Task → Bool), (∀ s, r.exec? s = delete? s x.time p) → p x = true →
      ∀ bt t, (bt, t) ∈ (run (step s (.req r)).1 es).2 → t.id ≠ x.id := by
    intro r p hr hpx bt t ht hid
    have hgone : ∀ y, Pending (step s (.req r)).1 y → y.id ≠ x.id := by
      intro y hy hyid
      have hys : Pending s y := by
        rcases (step_ext s (.req r)).2 y hy with h1 | h1
        · exact h1
        · have := pending_lt hi hp; omega
      have := hi.pending_inj hys hp hyid
      subst this
      obtain ⟨l, hl, hm⟩ := hy
      have hrange := (hi.bucket _ _ hp.choose_spec.1).2.1
      have hd : ∃ s', delete? s y.time p = some s' := by
        unfold delete?; rw [if_pos hrange]; split <;> exact ⟨_, rfl⟩
      obtain ⟨s', hs'⟩ := hd
      simp only [step, hr, hs', Option.getD_some] at hl
      rw [delete?_get hs', if_pos rfl] at hl
      rcases hg : s.store.get y.time with _ | l0
      · rw [hg] at hl; simp at hl
      · rw [hg] at hl
        simp only at hl
        by_cases he : (l0.filter (fun t => !p t)).isEmpty = true
        · rw [if_pos he] at hl; simp at hl
        · rw [if_neg he] at hl; injection hl with hl; subst hl
          simp [hpx] at hm
    rcases (run_log (step_inv _ hi) ht).2 with h1 | h1
    · exact hgone t h1 hid
    · have h2 := pending_lt hi hp
      have h3 := (step_ext s (.req r)).1
      omega
  exact ⟨key _ _ (fun _ => rfl) (by simp), key _ _ (fun _ => rfl) (by simp)⟩

/-- What C13 does not cover, and the code does not do: a handler that schedules a task for the very time being processed
(here: time 5 in the block of time 5) loses it – the key is deleted afterwards and the task never runs. -/
theorem C13_task_for_processed_time_is_lost :
    let h : Handlers := fun _ _ _ => some ([Req.schedule 5 2 []], false)
    let r := run State.empty [.req (.schedule 5 1 []), .block 5 h, .block 6 h, .block 7 h]
    r.1.next = 2 ∧ r.1.store = KV.empty ∧ r.2 = [(5, ⟨5, 1, [], 0⟩)] := by
  decide +kernel

/-- A concrete instance of the hypotheses of `C13_runs_in_first_due_block`. -/
example : Pending (run State.empty [.req (.schedule 5 1 [7]), .req (.schedule 5 1 [8])]).1 ⟨5, 1, [7], 0⟩ ∧
    (∀ e ∈ [Ev.req (.delete 5 1 [8]), Ev.block 4 (fun _ _ _ => none)], e.Leaves ⟨5, 1, [7], 0⟩) := by
  constructor
  · exact ⟨[⟨5, 1, [7], 0⟩, ⟨5, 1, [8], 1⟩], by decide +kernel, by simp⟩
  · simp [Ev.Leaves, Req.Spares, HandlersSpare]

/-! ### C14 -/

/-- C14: in every reachable state the tasks run in a block are in order of time and, for equal times, in order of
scheduling (`id` is the number of the scheduling request). -/
theorem C14_execution_order (s : State) (hs : Reachable s) (bt : Int) (h : Handlers) :
    (performSchedule h bt s).2.Pairwise (fun a b => a.time < b.time ∨ (a.time = b.time ∧ a.id < b.id)) :=
  log_before hs.inv

/-- C14 without ghost numbers: of two tasks requested one after another for the same time, both still pending when the
block comes, the one requested first runs first. -/
theorem C14_first_come_first_served (a b c : List Ev) (T : Int) (h1 h2 : Nat) (d1 d2 : List Nat) (bt : Int) (h : Handlers)
    (x1 x2 : Task)
    (hx1 : x1 = ⟨T, h1, d1, (run State.empty a).1.next⟩)
    (hx2 : x2 = ⟨T, h2, d2, (run State.empty (a ++ .req (.schedule T h1 d1) :: b)).1.next⟩)
    (hT : 0 ≤ T ∧ T < timeEnd) (hbt : T ≤ bt)
    (hp1 : Pending (run State.empty (a ++ .req (.schedule T h1 d1) :: b ++ .req (.schedule T h2 d2) :: c)).1 x1)
    (hp2 : Pending (run State.empty (a ++ .req (.schedule T h1 d1) :: b ++ .req (.schedule T h2 d2) :: c)).1 x2) :
    [x1, x2].Sublist
      (performSchedule h bt (run State.empty (a ++ .req (.schedule T h1 d1) :: b ++ .req (.schedule T h2 d2) :: c)).1).2 := by
  have hr : inRange T = true := by simp [inRange, hT.1, hT.2]
  have hlt : x1.id < x2.id := by
    subst hx1 hx2
    simp only [run_append, run]
    have e1 : ((step (run State.empty a).1 (.req (.schedule T h1 d1))).1).next = (run State.empty a).1.next + 1 := by
      simp [step, Req.exec?, schedule?, if_pos hr]
    have e2 := (run_ext (step (run State.empty a).1 (.req (.schedule T h1 d1))).1 b).1
    omega
  have ht1 : x1.time = T := by rw [hx1]
  have ht2 : x2.time = T := by rw [hx2]
  generalize hst : (run State.empty (a ++ .req (.schedule T h1 d1) :: b ++ .req (.schedule T h2 d2) :: c)).1 = s at *
  have hi : Inv s := by rw [← hst]; exact run_inv _ Inv.empty
  have m1 : x1 ∈ (performSchedule h bt s).2 := (mem_log hi).2 ⟨by omega, hp1⟩
  have m2 : x2 ∈ (performSchedule h bt s).2 := (mem_log hi).2 ⟨by omega, hp2⟩
  have hord := log_before (h := h) (bt := bt) hi
  generalize (performSchedule h bt s).2 = L at *
  obtain ⟨l1, l2, rfl⟩ := List.append_of_mem m2
  rw [List.pairwise_append, List.pairwise_cons] at hord
  rcases List.mem_append.1 m1 with m | m
  · obtain ⟨k1, k2, rfl⟩ := List.append_of_mem m
    simp only [List.append_assoc, List.cons_append]
    refine List.Sublist.trans ?_ (List.sublist_append_right k1 _)
    refine List.Sublist.cons_cons _ ?_
    refine List.Sublist.trans ?_ (List.sublist_append_right k2 _)
    exact List.Sublist.cons_cons _ (List.nil_sublist _)
  · exfalso
    rcases List.mem_cons.1 m with m | m
    · rw [m] at hlt; omega
    · rcases hord.2.1.1 x1 m with h | ⟨_, h⟩
      · rw [ht1, ht2] at h; omega
      · omega

example : let s := (run State.empty [.req (.schedule 9 1 [1]), .req (.schedule 5 1 [2]), .req (.schedule 9 1 [1]),
      .req (.schedule 20 1 [])]).1
    (performSchedule (fun _ _ _ => none) 10 s).2 = [⟨5, 1, [2], 1⟩, ⟨9, 1, [1], 0⟩, ⟨9, 1, [1], 2⟩] := by
  decide +kernel

/-! ### C15 -/

/-- Reading a big-endian byte string. -/
def valueOf (bs : List Nat) : Nat := bs.foldl (fun acc b => acc * 256 + b) 0

theorem valueOf_foldl (bs : List Nat) (a : Nat) :
    bs.foldl (fun acc b => acc * 256 + b) a = a * 256 ^ bs.length + valueOf bs := by
  induction bs generalizing a with
  | nil => simp [valueOf]
  | cons b bs ih =>
    simp only [List.foldl_cons, List.length_cons, valueOf]
    rw [ih, ih (0 * 256 + b), Nat.pow_succ]
    ring

theorem valueOf_cons (b : Nat) (bs : List Nat) : valueOf (b :: bs) = b * 256 ^ bs.length + valueOf bs := by
  have := valueOf_foldl bs b
  simpa [valueOf] using this

theorem bigEndian_length (n x : Nat) : (bigEndian n x).length = n := by
  induction n with
  | zero => rfl
  | succ n ih => simp [bigEndian, ih]

theorem bigEndian_lt (n x : Nat) : ∀ b ∈ bigEndian n x, b < 256 := by
  induction n with
  | zero => simp [bigEndian]
  | succ n ih =>
    intro b hb
    simp only [bigEndian, List.mem_cons] at hb
    rcases hb with rfl | hb
    · exact Nat.mod_lt _ (by norm_num)
    · exact ih b hb

theorem valueOf_bigEndian (n x : Nat) : valueOf (bigEndian n x) = x % 256 ^ n := by
  induction n with
  | zero => simp [bigEndian, valueOf, Nat.mod_one]
  | succ n ih =>
    rw [bigEndian, valueOf_cons, bigEndian_length, ih, Nat.pow_succ, Nat.mod_mul]
    ring

theorem valueOf_lt {bs : List Nat} (h : ∀ b ∈ bs, b < 256) : valueOf bs < 256 ^ bs.length := by
  induction bs with
  | nil => simp [valueOf]
  | cons b bs ih =>
    rw [valueOf_cons, List.length_cons, Nat.pow_succ]
    have h1 := ih (fun c hc => h c (by simp [hc]))
    have h2 := h b (by simp)
    calc b * 256 ^ bs.length + valueOf bs < b * 256 ^ bs.length + 256 ^ bs.length := by omega
      _ = (b + 1) * 256 ^ bs.length := by ring
      _ ≤ 256 * 256 ^ bs.length := Nat.mul_le_mul_right _ (by omega)
      _ = 256 ^ bs.length * 256 := by ring

/-- Byte strings of equal length compare as the numbers they stand for. -/
theorem lex_iff_valueOf {a b : List Nat} (hl : a.length = b.length) (ha : ∀ x ∈ a, x < 256) (hb : ∀ x ∈ b, x < 256) :
    a < b ↔ valueOf a < valueOf b := by
  induction a generalizing b with
  | nil =>
    cases b with
    | nil => simp [valueOf]
    | cons _ _ => simp at hl
  | cons x a ih =>
    cases b with
    | nil => simp at hl
    | cons y b =>
      have hl' : a.length = b.length := by simpa using hl
      have ih' := ih hl' (fun c hc => ha c (by simp [hc])) (fun c hc => hb c (by simp [hc]))
      have va := valueOf_lt (fun c hc => ha c (by simp [hc]) : ∀ c ∈ a, c < 256)
      have vb := valueOf_lt (fun c hc => hb c (by simp [hc]) : ∀ c ∈ b, c < 256)
      rw [List.cons_lt_cons_iff, valueOf_cons, valueOf_cons, ih', hl']
      rw [hl'] at va
      constructor
      · rintro (h | ⟨rfl, h⟩)
        · calc x * 256 ^ b.length + valueOf a < x * 256 ^ b.length + 256 ^ b.length := by omega
            _ = (x + 1) * 256 ^ b.length := by ring
            _ ≤ y * 256 ^ b.length := Nat.mul_le_mul_right _ (by omega)
            _ ≤ y * 256 ^ b.length + valueOf b := Nat.le_add_right _ _
        · omega
      · intro h
        rcases Nat.lt_trichotomy x y with hxy | hxy | hxy
        · exact Or.inl hxy
        · subst hxy; exact Or.inr ⟨rfl, by omega⟩
        · exfalso
          have h2 : (y + 1) * 256 ^ b.length ≤ x * 256 ^ b.length := Nat.mul_le_mul_right _ (by omega)
          have h3 : (y + 1) * 256 ^ b.length = y * 256 ^ b.length + 256 ^ b.length := by ring
          omega

theorem wrap_unwrap {t : Int} (h : 0 ≤ t) (h' : t < timeEnd) : (Int.bmod t (2 ^ 64)) % (2 ^ 64) = t := by
  have hm : Int.bmod t (2 ^ 64) % ((2 ^ 64 : Nat) : Int) = t % ((2 ^ 64 : Nat) : Int) := Int.bmod_emod
  have he : t % ((2 ^ 64 : Nat) : Int) = t := by
    apply Int.emod_eq_of_lt h
    unfold timeEnd at h'
    have : ((2 ^ 64 : Nat) : Int) = 18446744073709551616 := by norm_num
    omega
  rw [he] at hm
  exact_mod_cast hm

/-- C15: for every moment of the years 1970–2262, in nanoseconds, the key exists, is 8 bytes long, and read as a
big-endian number is the moment itself. -/
theorem C15_key_value (t : Int) (h : 0 ≤ t ∧ t < timeEnd) :
    ∃ k, key? t = some k ∧ k.length = 8 ∧ (∀ b ∈ k, b < 256) ∧ (valueOf k : Int) = t := by
  have hr : inRange t = true := by simp [inRange, h.1, h.2]
  refine ⟨_, by rw [key?, if_pos hr], bigEndian_length _ _, bigEndian_lt _ _, ?_⟩
  rw [valueOf_bigEndian, wrap_unwrap h.1 h.2, Nat.mod_eq_of_lt]
  · exact Int.toNat_of_nonneg h.1
  · have h2 := h.2
    unfold timeEnd at h2
    have : (256 : Nat) ^ 8 = 18446744073709551616 := by norm_num
    omega

/-- C15: keys compare (bytewise) exactly as moments do; in particular equal keys mean equal moments. -/
theorem C15_keys_order (t u : Int) (kt ku : List Nat) (ht : key? t = some kt) (hu : key? u = some ku) :
    (kt < ku ↔ t < u) ∧ (kt = ku ↔ t = u) := by
  have rng : ∀ {v : Int} {k : List Nat}, key? v = some k → 0 ≤ v ∧ v < timeEnd := by
    intro v k h
    unfold key? at h
    by_cases hr : inRange v = true
    · simpa [inRange] using hr
    · rw [if_neg hr] at h; simp at h
  obtain ⟨kt', h1, l1, b1, v1⟩ := C15_key_value t (rng ht)
  obtain ⟨ku', h2, l2, b2, v2⟩ := C15_key_value u (rng hu)
  rw [ht] at h1; rw [hu] at h2
  injection h1 with h1; injection h2 with h2
  subst h1 h2
  refine ⟨?_, ?_, ?_⟩
  · rw [lex_iff_valueOf (l1.trans l2.symm) b1 b2]; omega
  · rintro rfl; omega
  · rintro rfl; rw [ht] at hu; injection hu

/-- C15: outside these years there is no key (the code panics). -/
theorem C15_out_of_range (t : Int) (h : t < 0 ∨ timeEnd ≤ t) : key? t = none := by
  rw [key?, if_neg]
  simp only [inRange, decide_eq_true_eq]
  omega

/-- Moments on both sides of the end of the signed 64-bit range. -/
example : key? 9223372036854775807 = some [127, 255, 255, 255, 255, 255, 255, 255] ∧
    key? 9223372036854775808 = some [128, 0, 0, 0, 0, 0, 0, 0] := by decide +kernel

/-! ### C16 -/

/-- C16: whatever the handlers do – panic, be unknown, or anything else – exactly the pending tasks whose time has come
are run, and the run order is the same for all handlers. -/
theorem C16_all_due_tasks_run (s : State) (hs : Reachable s) (bt : Int) (h : Handlers) :
    (∀ t, t ∈ (performSchedule h bt s).2 ↔ (Pending s t ∧ t.time ≤ bt)) ∧
    (∀ h' : Handlers, (performSchedule h' bt s).2 = (performSchedule h bt s).2) :=
  ⟨fun t => by rw [mem_log hs.inv]; exact And.comm, fun h' => by rw [performSchedule_log, performSchedule_log]⟩

/-- C16: afterwards none of them is in the schedule any more. -/
theorem C16_due_tasks_removed (s : State) (hs : Reachable s) (bt : Int) (h : Handlers) (t : Task)
    (hp : Pending s t) (hd : t.time ≤ bt) : ∀ u, Pending (performSchedule h bt s).1 u → u.id ≠ t.id :=
  fun _ hu => log_not_pending hs.inv ((mem_log hs.inv).2 ⟨hd, hp⟩) hu

/-- C16: whether a handler panics after its last request or returns makes no difference to the store or the log; an
unknown handler amounts to one that does nothing. -/
theorem C16_panics_are_contained (s : State) (bt : Int) (h h' : Handlers)
    (hsame : ∀ i t s, ((h i t s).map Prod.fst).getD [] = ((h' i t s).map Prod.fst).getD []) :
    performSchedule h bt s = performSchedule h' bt s := by
  have h1 : ∀ i s t, runTask h i s t = runTask h' i s t := by
    intro i s t
    have := hsame i t s
    unfold runTask
    rcases e1 : h i t s with _ | ⟨r1, p1⟩ <;> rcases e2 : h' i t s with _ | ⟨r2, p2⟩ <;> simp_all [execReqs]
  have h2 : ∀ l i s, runTasks h i s l = runTasks h' i s l := by
    intro l
    induction l with
    | nil => intro i s; rfl
    | cons t ts ih => intro i s; simp [runTasks, h1, ih]
  unfold performSchedule
  simp [h2]

/-- C16: the failure of one task (call number `i`) does not keep a request of another (call number `j`) from taking effect:
see `C13_handler_request_makes_pending`, whose hypotheses allow every other handler to panic.  Concretely: -/
example :
    let h : Handlers := fun i _ _ => if i = 0 then some ([Req.schedule (-1) 0 []], true) else
      if i = 1 then none else some ([Req.schedule 50 3 [i]], true)
    let s := (run State.empty [.req (.schedule 5 1 []), .req (.schedule 5 2 []), .req (.schedule 6 3 []),
      .req (.schedule 7 3 [])]).1
    (performSchedule h 10 s).2.length = 4 ∧
    (performSchedule h 10 s).1.store.entries = [(50, [⟨50, 3, [2], 4⟩, ⟨50, 3, [3], 5⟩])] := by
  decide +kernel

/-! ### C17 -/

/-- A task without the ghost number: what the genesis file contains. -/
def Task.visible (t : Task) : Int × Nat × List Nat := (t.time, t.handler, t.data)

/-- What is scheduled for a time. -/
def State.at (s : State) (T : Int) : List (Int × Nat × List Nat) := ((s.store.get T).getD []).map Task.visible

theorem flatten_filter {es : List (Int × List Task)} (hs : es.Pairwise (fun a b => a.1 < b.1))
    (hb : ∀ e ∈ es, ∀ t ∈ e.2, t.time = e.1) (T : Int) :
    (es.map Prod.snd).flatten.filter (fun t => t.time == T) = (KV.getL T es).getD [] := by
  induction es with
  | nil => simp [KV.getL]
  | cons e es ih =>
    rw [List.pairwise_cons] at hs
    simp only [List.map_cons, List.flatten_cons, List.filter_append]
    rw [ih hs.2 (fun e' he' => hb e' (by simp [he']))]
    obtain ⟨k, l⟩ := e
    have hl : ∀ t ∈ l, t.time = k := hb (k, l) (by simp)
    by_cases hT : T = k
    · subst hT
      have h1 : l.filter (fun t => t.time == T) = l := by
        rw [List.filter_eq_self]; intro t ht; simp [hl t ht]
      have h2 : KV.getL T es = none := KV.getL_none_of_lt hs.1
      rw [h1, h2]; simp [KV.getL]
    · have h1 : l.filter (fun t => t.time == T) = [] := by
        rw [List.filter_eq_nil_iff]; intro t ht h; simp only [beq_iff_eq] at h; exact hT (by rw [← h, hl t ht])
      rw [h1]; simp [KV.getL, hT]

theorem import_spec (l : List Task) (s : State) (h : ∀ t ∈ l, inRange t.time = true) :
    ∃ s', importTasks? s l = some s' ∧
      ∀ T, s'.at T = s.at T ++ (l.filter (fun t => t.time == T)).map Task.visible := by
  induction l generalizing s with
  | nil => exact ⟨s, rfl, by simp⟩
  | cons t ts ih =>
    have ht := h t (by simp)
    simp only [importTasks?, schedule?, if_pos ht]
    obtain ⟨s', h1, h2⟩ := ih _ (fun u hu => h u (by simp [hu]))
    refine ⟨s', h1, fun T => ?_⟩
    rw [h2 T]
    unfold State.at
    rw [KV.get_set]
    by_cases hT : T = t.time
    · subst hT
      rw [if_pos rfl]
      simp [Task.visible]
    · rw [if_neg hT]
      have : (t.time == T) = false := by simpa using fun h => hT h.symm
      simp [this]

/-- C17: for every reachable schedule, importing its export into an empty chain succeeds and yields at every time the
same tasks in the same order; exporting again gives the same file. -/
theorem C17_export_import (s : State) (hs : Reachable s) :
    ∃ s', importTasks? State.empty (exportTasks s) = some s' ∧ (∀ T, s'.at T = s.at T) ∧
      (exportTasks s').map Task.visible = (exportTasks s).map Task.visible := by
  have hi := hs.inv
  have hb : ∀ e ∈ s.store.entries, ∀ t ∈ e.2, t.time = e.1 := fun e he t ht =>
    ((hi.bucket _ _ (KV.mem_entries.1 he)).2.2.2 t ht).1
  have hr : ∀ t ∈ exportTasks s, inRange t.time = true := by
    intro t ht
    simp only [exportTasks, List.mem_flatten, List.mem_map] at ht
    obtain ⟨l, ⟨e, he, rfl⟩, hm⟩ := ht
    rw [hb e he t hm]
    exact (hi.bucket _ _ (KV.mem_entries.1 he)).2.1
  obtain ⟨s', h1, h2⟩ := import_spec (exportTasks s) State.empty hr
  have hat : ∀ T, s'.at T = s.at T := by
    intro T
    rw [h2 T, exportTasks, flatten_filter s.store.sorted hb T]
    have : State.empty.at T = [] := rfl
    rw [this]; rfl
  -- the importing store satisfies the invariant too
  have hi' : Inv s' := by
    have : ∀ (l : List Task) (a b : State), Inv a → importTasks? a l = some b → Inv b := by
      intro l
      induction l with
      | nil => intro a b ha h; simp only [importTasks?] at h; injection h with h; exact h ▸ ha
      | cons t ts ih =>
        intro a b ha h
        simp only [importTasks?] at h
        rcases hq : schedule? a t.time t.handler t.data with _ | a'
        · rw [hq] at h; simp at h
        · rw [hq] at h; exact ih a' b (schedule?_inv hq ha) h
    exact this _ _ _ Inv.empty h1
  refine ⟨s', h1, hat, ?_⟩
  -- equal buckets give equal key lists and hence equal exports
  have hopt : ∀ T, (s'.store.get T).map (List.map Task.visible) = (s.store.get T).map (List.map Task.visible) := by
    intro T
    have h := hat T
    unfold State.at at h
    rcases e1 : s'.store.get T with _ | l1 <;> rcases e2 : s.store.get T with _ | l2
    · rfl
    · rw [e1, e2] at h
      exact absurd (by simpa using h.symm) (hi.bucket _ _ e2).1
    · rw [e1, e2] at h
      exact absurd (by simpa using h) (hi'.bucket _ _ e1).1
    · rw [e1, e2] at h; simpa using h
  have hmap : ∀ (es es' : List (Int × List Task)), es.Pairwise (fun a b => a.1 < b.1) →
      es'.Pairwise (fun a b => a.1 < b.1) →
      (∀ T, (KV.getL T es).map (List.map Task.visible) = (KV.getL T es').map (List.map Task.visible)) →
      es.map (fun e => (e.1, e.2.map Task.visible)) = es'.map (fun e => (e.1, e.2.map Task.visible)) := by
    intro es es' p p' hg
    have hgm : ∀ (l : List (Int × List Task)) T, KV.getL T (l.map (fun e => (e.1, e.2.map Task.visible))) =
        (KV.getL T l).map (List.map Task.visible) := by
      intro l T
      induction l with
      | nil => rfl
      | cons e l ih =>
        obtain ⟨k, v⟩ := e
        simp only [List.map_cons, KV.getL]
        by_cases hT : T = k
        · simp [hT]
        · simp [hT, ih]
    refine KV.extL (by unfold SortedKeys; rw [List.pairwise_map]; exact p)
      (by unfold SortedKeys; rw [List.pairwise_map]; exact p') (fun T => ?_)
    rw [hgm, hgm]; exact hg T
  have hfin := hmap _ _ s'.store.sorted s.store.sorted hopt
  have hflat : ∀ l : List (Int × List Task), (l.map Prod.snd).flatten.map Task.visible =
      ((l.map (fun e => (e.1, e.2.map Task.visible))).map Prod.snd).flatten := by
    intro l
    induction l with
    | nil => rfl
    | cons e l ih => simp only [List.map_cons, List.flatten_cons, List.map_append, ih]
  unfold exportTasks
  rw [hflat, hflat, hfin]

example : Reachable (run State.empty [.req (.schedule 5 1 [7]), .req (.schedule 3 2 []), .req (.schedule 5 1 [8])]).1 :=
  ⟨_, rfl⟩

end Verif.Schedule
