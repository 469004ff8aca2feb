import Verif.Referral.Wait

/-! Property C51: a request for a transition stays open for a full day. -/
namespace Verif.Referral

/-! ### Specification -/

/-- The module, and the tasks that the scheduler took off its list in this block and that were not run yet. -/
structure Watch where
  s : State
  due : List Schedule.Task

/-- The task is the timeout of `k`. -/
def isTimeout (k : Key) (x : Schedule.Task) : Bool := x.handler == timeoutHook && x.data == [k]

/-- As `Ev.step`; a timeout that runs is not due any more. -/
def Watch.step : Ev → Watch → Watch
  | .block now, w => ⟨(Ev.block now).step w.s, (Schedule.performSchedule (fun _ _ _ => none) now w.s.sched).2⟩
  | .op e (.timeout k), w => ⟨Referral.step e (.timeout k) w.s, w.due.eraseP (isTimeout k)⟩
  | .op e o, w => ⟨Referral.step e o w.s, w.due⟩

def watch : List Ev → Watch → Watch
  | [], w => w
  | v :: l, w => watch l (w.step v)

/-- Time does not run backwards and passes with blocks only; the scheduler runs the timeouts that are due and no others; transactions come
after the tasks of the block. -/
def regular : Ev → Watch → Prop
  | .block n, w => w.s.now ≤ n
  | .op _ (.world n _ _ _), w => n = w.s.now
  | .op _ (.timeout k), w => w.due.any (isTimeout k) = true
  | .op _ (.request k _), w => w.due.any (isTimeout k) = false
  | .op _ _, _ => True

/-- Nobody resolves the request of `j` (whoever tries fails), and the genesis file has been read. -/
def hands (j : Key) : Ev → Watch → Prop
  | .op e (.resolve g k b), w => k = j → step e (.resolve g k b) w.s = w.s
  | .op _ (.times k _ _ _ _ _), _ => k ≠ j
  | .op _ (.banished k _), _ => k ≠ j
  | _, _ => True

/-- Every step meets a condition on the state before it. -/
def Watched (ok : Ev → Watch → Prop) : List Ev → Watch → Prop
  | [], _ => True
  | v :: l, w => ok v w ∧ Watched ok l (w.step v)

/-- The moments at which requests of `j` were accepted. -/
def requests (j : Key) : List Ev → Watch → List Int
  | [], _ => []
  | v :: l, w =>
    (match v with
      | .op e (.request k x) => if k = j ∧ (requestTransition e k x w.s).1 = .ok () then [w.s.now] else []
      | _ => []) ++ requests j l (w.step v)

/-! ### The schedule in a block -/

theorem isTimeout_iff {k : Key} {x : Schedule.Task} : isTimeout k x = true ↔ x.handler = timeoutHook ∧ x.data = [k] := by
  unfold isTimeout; simp

theorem block_slot (n : Int) (s : State) (j : Key) (z : Int) : slot ((Ev.block n).step s).sched j z ↔ slot s.sched j z ∧ n < z := by
  have hr : ∀ (l : List Schedule.Task) (i : Nat), (Schedule.runTasks (fun _ _ _ => none) i s.sched l).1 = s.sched := by
    intro l
    induction l with
    | nil => intro i; rfl
    | cons t l ih => intro i; exact ih (i + 1)
  unfold slot
  show (∃ y ∈ ((Schedule.performSchedule (fun _ _ _ => none) n s.sched).1.store.get z).getD [], _) ↔ _
  rw [Schedule.performSchedule_get, hr]
  by_cases hz : z ∈ Schedule.dueKeys n s.sched
  · rw [if_pos hz]
    have := (Schedule.mem_dueKeys.1 hz).1
    constructor
    · rintro ⟨y, hy, -⟩; cases hy
    · rintro ⟨-, h⟩; omega
  · rw [if_neg hz]
    constructor
    · rintro ⟨y, hy, h⟩
      refine ⟨⟨y, hy, h⟩, ?_⟩
      by_contra hc
      refine hz (Schedule.mem_dueKeys.2 ⟨by omega, ?_⟩)
      cases hg : s.sched.store.get z with
      | none => rw [hg] at hy; cases hy
      | some l => exact ⟨l, rfl⟩
    · exact fun h => h.1

theorem block_due (n : Int) (w : Watch) (j : Key) : (w.step (.block n)).due.any (isTimeout j) = true ↔ ∃ z, slot w.s.sched j z ∧ z ≤ n := by
  show (Schedule.performSchedule (fun _ _ _ => none) n w.s.sched).2.any (isTimeout j) = true ↔ _
  rw [Schedule.performSchedule_log, List.any_eq_true]
  simp only [List.mem_flatten, List.mem_map, List.mem_filter, decide_eq_true_eq]
  constructor
  · rintro ⟨x, ⟨l, ⟨e, ⟨he, hlt⟩, rfl⟩, hm⟩, hx⟩
    refine ⟨e.1, ⟨x, ?_, isTimeout_iff.1 hx⟩, by omega⟩
    rw [KV.mem_entries.1 he]
    exact hm
  · rintro ⟨z, ⟨x, hx, hh⟩, hz⟩
    cases hg : w.s.sched.store.get z with
    | none => rw [hg] at hx; cases hx
    | some l =>
      rw [hg] at hx
      exact ⟨x, ⟨l, ⟨(z, l), ⟨KV.mem_entries.2 hg, by simp; omega⟩, rfl⟩, hx⟩, isTimeout_iff.2 hh⟩

/-! ### Before the request -/

/-- Every timeout of `j` on the list lies in the future and comes from the list `B`. -/
def Pledged (j : Key) (B : Int → Prop) (s : State) : Prop := ∀ z, slot s.sched j z → s.now < z ∧ B z

/-- The timeouts of `j` on the list satisfy `H`. -/
def history (j : Key) (H : Int → Prop) (n y : Int) : Terms where
  j := j
  p := fun _ => True
  q := fun sch => ∀ z, slot sch j z → H z
  n := n
  y := y
  book := fun hh he hq z hz => by
    rcases (slot_of_schedule he j z).1 hz with h | ⟨-, h, -⟩
    · exact hq z h
    · exact absurd h hh
  unbook := fun he hq z hz => hq z ((slot_of_delete (by decide) he j z).1 hz)

theorem op_day (e : Env) (o : Op) (s : State) : (step e o s).day = s.day := by
  cases o with
  | world n d p i => rfl
  | _ => exact (step_stay (c := history 0 (fun _ => True) s.now s.day) e _ s ⟨rfl, rfl, fun _ _ => trivial, trivial⟩ (by
      first
        | exact ⟨fun _ => trivial, fun _ _ _ _ _ _ => trivial⟩
        | exact fun _ => trivial
        | trivial)).day

theorem op_now (e : Env) (o : Op) (s : State) (h : ∀ n d p i, o = .world n d p i → n = s.now) : (step e o s).now = s.now := by
  cases o with
  | world n d p i => exact h n d p i rfl
  | _ => exact (step_stay (c := history 0 (fun _ => True) s.now s.day) e _ s ⟨rfl, rfl, fun _ _ => trivial, trivial⟩ (by
      first
        | exact ⟨fun _ => trivial, fun _ _ _ _ _ _ => trivial⟩
        | exact fun _ => trivial
        | trivial)).now

theorem op_pledged (j : Key) (e : Env) (o : Op) (s : State) (B : Int → Prop) (hd : 0 < s.day) (h : Pledged j B s)
    (hw : ∀ n d p i, o = .world n d p i → n = s.now) (hr : ∀ x, o = .request j x → (requestTransition e j x s).1 = .ok () → B (s.now + s.day)) :
    Pledged j B (step e o s) := by
  have key : (history j (fun z => s.now < z ∧ B z) s.now s.day).ok o → Pledged j B (step e o s) := by
    intro hok
    have hs := step_stay e o s ⟨rfl, rfl, h, trivial⟩ hok
    intro z hz
    rw [hs.now]
    exact hs.sched z hz
  cases o with
  | world n d p i => exact key (hw n d p i rfl)
  | request k x =>
    by_cases hk : k = j
    · subst hk
      rcases M.tx_cases (requestTransition e k x) s with ⟨a, ha⟩ | ⟨-, hx⟩
      · refine key ⟨fun _ => trivial, fun a b hab hq z hz => ?_⟩
        rcases (slot_of_schedule hab k z).1 hz with h | ⟨h, -, -⟩
        · exact hq z h
        · have h : z = s.now + s.day := h
          rw [h]
          exact ⟨by omega, hr x rfl (by rw [ha])⟩
      · show Pledged k B (M.tx (requestTransition e k x) s)
        rw [hx]; exact h
    · refine key ⟨fun _ => trivial, fun a b hab hq z hz => ?_⟩
      rcases (slot_of_schedule hab j z).1 hz with h | ⟨-, -, h⟩
      · exact hq z h
      · exact absurd h hk
  | _ =>
    refine key ?_
    first
      | exact fun _ => trivial
      | trivial

theorem watch_day (l : List Ev) (w : Watch) : (watch l w).s.day = w.s.day := by
  induction l generalizing w with
  | nil => rfl
  | cons v l ih =>
    show (watch l (w.step v)).s.day = _
    rw [ih]
    cases v with
    | block n => rfl
    | op e o => cases o <;> exact op_day e _ w.s

theorem watch_pledged (j : Key) : ∀ (l : List Ev) (w : Watch) (B : Int → Prop), 0 < w.s.day → Pledged j B w.s → Watched regular l w →
    (∀ a ∈ requests j l w, B (a + w.s.day)) → Pledged j B (watch l w).s
  | [], _, _, _, h, _, _ => h
  | v :: l, w, B, hd, h, hl, hr => by
    have hday : (w.step v).s.day = w.s.day := watch_day [v] w
    refine watch_pledged j l (w.step v) B (by rw [hday]; exact hd) ?_ hl.2 fun a ha => by
      rw [hday]; exact hr a (List.mem_append_right _ ha)
    cases v with
    | block n =>
      intro z hz
      have hz := (block_slot n w.s j z).1 hz
      exact ⟨hz.2, (h z hz.1).2⟩
    | op e o =>
      have hs : (w.step (.op e o)).s = step e o w.s := by cases o <;> rfl
      rw [hs]
      refine op_pledged j e o w.s B hd h ?_ ?_
      · rintro n d p i rfl; exact hl.1
      · rintro x rfl hx
        refine hr _ (List.mem_append_left _ ?_)
        show w.s.now ∈ (if j = j ∧ (requestTransition e j x w.s).1 = .ok () then [w.s.now] else [])
        rw [if_pos ⟨rfl, hx⟩]
        exact List.mem_singleton.2 rfl

/-! ### After the request -/

/-- The request of `j` is pending, its timeout is on the list for `T`, and none is earlier. -/
def pendingTill (j d : Key) (T n y : Int) : Terms where
  j := j
  p := fun o => o = some d
  q := fun sch => slot sch j T ∧ ∀ z, slot sch j z → T ≤ z
  n := n
  y := y
  book := fun hh he hq => ⟨(slot_of_schedule he j T).2 (.inl hq.1), fun z hz => by
    rcases (slot_of_schedule he j z).1 hz with h | ⟨-, h, -⟩
    · exact hq.2 z h
    · exact absurd h hh⟩
  unbook := fun he hq => ⟨(slot_of_delete (by decide) he j T).2 hq.1, fun z hz => hq.2 z ((slot_of_delete (by decide) he j z).1 hz)⟩

/-- The request is open and will be closed by the scheduler at `T` at the earliest. -/
structure Open (j d : Key) (T : Int) (w : Watch) : Prop where
  out : (pendingTill j d T w.s.now w.s.day).Out w.s
  due : w.due.any (isTimeout j) = false

theorem op_open {j d : Key} {T : Int} {w : Watch} (h : Open j d T w) (e : Env) (o : Op) (hr : regular (.op e o) w) (hh : hands j (.op e o) w) :
    Open j d T (w.step (.op e o)) := by
  have same : ∀ u : State, u = w.s → (pendingTill j d T u.now u.day).Out u := by rintro _ rfl; exact h.out
  have key : (pendingTill j d T w.s.now w.s.day).ok o → (pendingTill j d T (step e o w.s).now (step e o w.s).day).Out (step e o w.s) := by
    intro hok
    have := step_stay e o w.s h.out hok
    exact ⟨rfl, rfl, this.sched, this.store⟩
  have hstore : (infoOf w.s.store j).transition = some d := h.out.store
  cases o with
  | timeout k =>
    have hr : w.due.any (isTimeout k) = true := hr
    have hk : k ≠ j := by rintro rfl; rw [h.due] at hr; cases hr
    refine ⟨key fun hc => absurd hc hk, ?_⟩
    show (w.due.eraseP (isTimeout k)).any (isTimeout j) = false
    rw [List.any_eq_false]
    intro x hx
    exact (List.any_eq_false.1 h.due) x (List.mem_of_mem_eraseP hx)
  | request k x =>
    refine ⟨?_, h.due⟩
    by_cases hk : k = j
    · subst hk
      exact same _ (C27_second_request_partial e k x w.s (by rw [hstore]; simp))
    · refine key ⟨fun hc => absurd hc hk, fun a b hab hq => ⟨(slot_of_schedule hab j T).2 (.inl hq.1), fun z hz => ?_⟩⟩
      rcases (slot_of_schedule hab j z).1 hz with h | ⟨-, -, h⟩
      · exact hq.2 z h
      · exact absurd h hk
  | resolve g k b =>
    refine ⟨?_, h.due⟩
    by_cases hk : k = j
    · exact same _ (hh hk)
    · exact key fun hc => absurd hc hk
  | times k a b c x n => exact ⟨key fun hc => absurd hc hh, h.due⟩
  | banished k f => exact ⟨key fun hc => absurd hc hh, h.due⟩
  | world n a p i => exact ⟨key hr, h.due⟩
  | _ => exact ⟨key trivial, h.due⟩

theorem block_open {j d : Key} {T : Int} {w : Watch} (h : Open j d T w) {n : Int} (hn : n < T) : Open j d T (w.step (.block n)) := by
  refine ⟨⟨rfl, rfl, ⟨(block_slot n w.s j T).2 ⟨h.out.sched.1, hn⟩, fun z hz => h.out.sched.2 z ((block_slot n w.s j z).1 hz).1⟩, h.out.store⟩, ?_⟩
  by_contra hc
  obtain ⟨z, hz, hzn⟩ := (block_due n w j).1 (by simpa using hc)
  have := h.out.sched.2 z hz
  omega

theorem watch_now_le : ∀ (l : List Ev) (w : Watch), Watched regular l w → w.s.now ≤ (watch l w).s.now
  | [], _, _ => Int.le_refl _
  | v :: l, w, h => by
    refine Int.le_trans ?_ (watch_now_le l (w.step v) h.2)
    cases v with
    | block n => exact h.1
    | op e o =>
      have hs : (w.step (.op e o)).s = step e o w.s := by cases o <;> rfl
      rw [hs, op_now e o w.s]
      rintro n d p i rfl; exact h.1

theorem watch_open {j d : Key} {T : Int} : ∀ (l : List Ev) (w : Watch), Open j d T w → Watched regular l w → Watched (hands j) l w →
    (watch l w).s.now < T → Open j d T (watch l w)
  | [], _, h, _, _, _ => h
  | .block n :: l, w, h, hr, hh, hn => by
    have := watch_now_le l (w.step (.block n)) hr.2
    exact watch_open l _ (block_open h (Int.lt_of_le_of_lt this hn)) hr.2 hh.2 hn
  | .op e o :: l, w, h, hr, hh, hn => watch_open l _ (op_open h e o hr.1 hh.1) hr.2 hh.2 hn

theorem request_sched {e : Env} {j : Key} {d : Option Key} {s t : State} (h : requestTransition e j d s = (.ok (), t)) (hp : ∀ z, ¬ slot s.sched j z) :
    ∀ z, slot t.sched j z → z = s.now + s.day := by
  have := Stay.requestTransition (c := history j (fun z => z = s.now + s.day) s.now s.day) e j d (fun _ => trivial)
    (fun a b hab hq z hz => by
      rcases (slot_of_schedule hab j z).1 hz with h | ⟨h, -, -⟩
      · exact hq z h
      · exact h) s ⟨rfl, rfl, fun z hz => absurd hz (hp z), trivial⟩
  rw [h] at this
  exact this.1.sched

theorem open_of_request {e : Env} {j d : Key} {w : Watch} (hd : w.due.any (isTimeout j) = false) (hp : ∀ z, ¬ slot w.s.sched j z)
    (h : (requestTransition e j (some d) w.s).1 = .ok ()) : Open j d (w.s.now + w.s.day) (w.step (.op e (.request j (some d)))) := by
  rcases hm : requestTransition e j (some d) w.s with ⟨r, t⟩
  rw [hm] at h
  obtain rfl : r = .ok () := h
  have e1 : (w.step (.op e (.request j (some d)))).s = t := M.tx_of_ok hm
  obtain ⟨ht, hpl⟩ := C51_planned_partial e j (some d) w.s t hm
  have hnow : t.now = w.s.now := by
    rw [← e1]; exact op_now e (.request j (some d)) w.s (by intro _ _ _ _ h; cases h)
  have hday : t.day = w.s.day := by
    rw [← e1]; exact op_day e (.request j (some d)) w.s
  refine ⟨?_, hd⟩
  rw [e1]
  refine ⟨rfl, rfl, ⟨?_, fun z hz => ?_⟩, ht⟩
  · rw [← hnow, ← hday]; exact hpl
  · exact Int.le_of_eq (request_sched hm hp z hz).symm

theorem watch_append : ∀ (l l' : List Ev) (w : Watch), watch (l ++ l') w = watch l' (watch l w)
  | [], _, _ => rfl
  | v :: l, l', w => watch_append l l' (w.step v)

theorem watched_append {ok : Ev → Watch → Prop} : ∀ {l l' : List Ev} {w : Watch}, Watched ok (l ++ l') w → Watched ok l w ∧ Watched ok l' (watch l w)
  | [], _, _, h => ⟨trivial, h⟩
  | _ :: _, _, _, h => ⟨⟨h.1, (watched_append h.2).1⟩, (watched_append h.2).2⟩

/-! ### The property -/

/-- What is needed of the history `l` of account `j` until it makes a request: timeouts on the list of the genesis file lie in the future of the
start and in the past by now, and no request was accepted within the last day. -/
structure Quietly (j : Key) (l : List Ev) (w : Watch) : Prop where
  day : 0 < w.s.day
  genesis : ∀ z, planned w.s j z → w.s.now < z ∧ z ≤ (watch l w).s.now
  last : ∀ a ∈ requests j l w, a + w.s.day ≤ (watch l w).s.now

/-- The request of `j` is accepted after the history `l`, and nobody resolves it during `l'`. -/
structure Asks (j d : Key) (e : Env) (l l' : List Ev) (w : Watch) : Prop where
  regular : Watched regular (l ++ .op e (.request j (some d)) :: l') w
  accepted : (requestTransition e j (some d) (watch l w).s).1 = .ok ()
  hands : Watched (hands j) l' (watch (l ++ [.op e (.request j (some d))]) w)

theorem Asks.open {l l' : List Ev} {w : Watch} {j d : Key} {e : Env} (hq : Quietly j l w) (h : Asks j d e l l' w)
    (hn : (watch (l ++ .op e (.request j (some d)) :: l') w).s.now < (watch l w).s.now + w.s.day) :
    Open j d ((watch l w).s.now + w.s.day) (watch (l ++ .op e (.request j (some d)) :: l') w) := by
  obtain ⟨hr, hr1, hr2⟩ := watched_append h.regular
  have hp := watch_pledged j l w (fun z => z ≤ (watch l w).s.now) hq.day (fun z hz => hq.genesis z hz) hr fun a ha => hq.last a ha
  have ho := open_of_request (e := e) (d := d) hr1 (fun z hz => by have := hp z hz; omega) h.accepted
  rw [watch_day] at ho
  rw [watch_append] at hn ⊢
  refine watch_open l' _ ho hr2 ?_ hn
  have := h.hands
  rwa [watch_append] at this

/-- After any history in which no request of `j` was accepted within the last day, an accepted request stays pending until it is resolved or a
full day has passed, whatever else happens. -/
theorem C51_open_partial (l l' : List Ev) (w : Watch) (j d : Key) (e : Env) (hq : Quietly j l w) (h : Asks j d e l l' w)
    (hn : (watch (l ++ .op e (.request j (some d)) :: l') w).s.now < (watch l w).s.now + w.s.day) :
    (infoOf (watch (l ++ .op e (.request j (some d)) :: l') w).s.store j).transition = some d :=
  (h.open hq hn).out.store

/-- The first block after a full day takes the timeout off the list, and no earlier block does. -/
theorem C51_due_partial (l l' : List Ev) (w : Watch) (j d : Key) (e : Env) (n : Int) (hq : Quietly j l w) (h : Asks j d e l l' w)
    (hn : (watch (l ++ .op e (.request j (some d)) :: l') w).s.now < (watch l w).s.now + w.s.day) :
    ((watch (l ++ .op e (.request j (some d)) :: l') w).step (.block n)).due.any (isTimeout j) = true ↔ (watch l w).s.now + w.s.day ≤ n := by
  have ho := h.open hq hn
  rw [block_due]
  constructor
  · rintro ⟨z, hz, hzn⟩
    exact Int.le_trans (ho.out.sched.2 z hz) hzn
  · exact fun hc => ⟨_, ho.out.sched.1, hc⟩

/-- Running the timeout clears the request. -/
theorem C51_closes (w : Watch) (e : Env) (j : Key) : (infoOf (w.step (.op e (.timeout j))).s.store j).transition = none := by
  show (infoOf (step e (.timeout j) w.s).store j).transition = none
  rw [(C27_drop e j j w.s).1.record j, if_pos rfl]

instance (v : Ev) (w : Watch) : Decidable (regular v w) := by
  cases v with
  | block n => unfold regular; infer_instance
  | op e o => cases o <;> (unfold regular; infer_instance)

instance watchedDec (ok : Ev → Watch → Prop) [∀ v w, Decidable (ok v w)] : ∀ l w, Decidable (Watched ok l w)
  | [], _ => .isTrue trivial
  | v :: l, w =>
    have := watchedDec ok l (w.step v)
    by unfold Watched; infer_instance

/-- Five accounts; account 3 asks to move at time 0, is declined, and asks again at time 12, a day (which is 10 long) later. -/
def patient : List Ev :=
  moving.map (fun x => Ev.op x.1 x.2) ++ [.op fine (.resolve (text 1) (text 3) false), .block 6, .block 11, .op fine (.timeout (text 3)), .block 12]

/-- Account 4 asks as well, account 2 runs out of its paid period. -/
def meanwhile : List Ev := [.op fine (.request (text 4) (some (text 1))), .block 15, .op fine (.expire (text 2)), .block 21]

example : Quietly (text 3) patient ⟨plain, []⟩ ∧ Asks (text 3) (text 2) fine patient meanwhile ⟨plain, []⟩ ∧
    (watch patient ⟨plain, []⟩).s.now + plain.day = 22 ∧ requests (text 3) patient ⟨plain, []⟩ = [0] ∧
    (watch (patient ++ .op fine (.request (text 3) (some (text 2))) :: meanwhile) ⟨plain, []⟩).s.now = 21 := by
  refine ⟨⟨by decide, ?_, ?_⟩, ⟨?_, ?_, ?_⟩, ?_, ?_, ?_⟩
  · rintro z ⟨y, hy, -⟩
    cases (show y ∈ ((KV.empty : KV Int (List Schedule.Task)).get z).getD [] from hy)
  · decide +kernel
  · decide +kernel
  · decide +kernel
  · exact ⟨trivial, trivial, trivial, trivial, trivial⟩
  all_goals decide +kernel

/-- The same without waiting: the second request is made at time 6. -/
def hasty : List Ev := moving.map (fun x => Ev.op x.1 x.2) ++ [.op fine (.resolve (text 1) (text 3) false), .block 6]

/-- Without the condition on earlier requests the scheduler drops a request early: made at time 6, it is gone at time 10, though nobody resolved
it and the day is 10 long. -/
theorem C51_stale_timeout_violation : ∃ (l l' : List Ev) (w : Watch) (j d : Key) (e : Env), w.s.start ∧ w.s.day = 10 ∧ Asks j d e l l' w ∧
    (watch l w).s.now = 6 ∧ (watch (l ++ .op e (.request j (some d)) :: l') w).s.now = 10 ∧
    (infoOf (watch (l ++ [.op e (.request j (some d))]) w).s.store j).transition = some d ∧
    (infoOf (watch (l ++ .op e (.request j (some d)) :: l') w).s.store j).transition = none := by
  refine ⟨hasty, [.block 10, .op fine (.timeout (text 3))], ⟨plain, []⟩, text 3, text 2, fine, rfl, rfl, ⟨?_, ?_, trivial, trivial, trivial⟩, ?_, ?_, ?_, ?_⟩
  all_goals decide +kernel

end Verif.Referral
