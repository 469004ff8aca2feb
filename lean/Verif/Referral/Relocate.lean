import Verif.Referral.AnnounceCases

/-!
Property C87: versions 2.4.3 and 2.4.4 bring downgrades forward (`UpdateStatusDowngradeTasks`, `FixStatusDowngradeTasks`,
/repo/app/upgrade.go:725-802, 822-896).
-/
namespace Verif

/-! ### A walk over a store that rewrites it -/

namespace KV
variable {K V : Type} [LinearOrder K]

/-- One pass of an iterator; `g` says what becomes of an entry: nothing, deletion (`some none`) or a new value.  The iterator shows the entries of
the time it was made, as only the current key is written. -/
def rewriteL (g : K → V → Option (Option V)) : List (K × V) → KV K V → KV K V
  | [], m => m
  | (k, v) :: l, m => rewriteL g l (match g k v with
    | none => m
    | some none => m.erase k
    | some (some w) => m.set k w)

def rewrite (g : K → V → Option (Option V)) (m : KV K V) : KV K V := rewriteL g m.entries m

theorem get_rewriteL (g : K → V → Option (Option V)) (j : K) {l : List (K × V)} (hl : SortedKeys l) (m : KV K V) :
    (rewriteL g l m).get j = match getL j l with
      | none => m.get j
      | some v => (g j v).getD (m.get j) := by
  induction l generalizing m with
  | nil => rfl
  | cons a l ih =>
    obtain ⟨k, v⟩ := a
    unfold SortedKeys at hl
    rw [List.pairwise_cons] at hl
    unfold rewriteL
    rw [ih hl.2]
    by_cases hj : j = k
    · subst hj
      rw [getL_none_of_lt hl.1]
      simp only [getL, if_true]
      cases g j v with
      | none => rfl
      | some r =>
        cases r with
        | none => simp
        | some w => simp
    · simp only [getL, if_neg hj]
      have : ∀ m' : KV K V, m'.get j = m.get j → (match getL j l with
          | none => m'.get j
          | some v => (g j v).getD (m'.get j)) = match getL j l with
          | none => m.get j
          | some v => (g j v).getD (m.get j) := fun m' h => by rw [h]
      apply this
      cases g k v with
      | none => rfl
      | some r =>
        cases r with
        | none => exact get_erase_ne _ hj
        | some w => exact get_set_ne _ _ hj

theorem get_rewrite (g : K → V → Option (Option V)) (m : KV K V) (j : K) :
    (m.rewrite g).get j = (m.get j).bind fun v => (g j v).getD (some v) := by
  unfold rewrite
  rw [get_rewriteL g j m.sorted m]
  show (match m.get j with | none => m.get j | some v => (g j v).getD (m.get j)) = _
  cases m.get j <;> rfl

end KV

namespace Referral
open Verif.Schedule (Pending Task)

/-! ### Model -/

/-- upgrade.go:751-759 -/
def capTask (limit : Int) (x : Task) : Task := if x.handler = downgradeHook ∧ limit < x.time then { x with time := limit } else x

/-- upgrade.go:743-773; a schedule is written back under the key it was found at. -/
def capBucket (limit : Int) (_ : Int) (l : List Task) : Option (Option (List Task)) :=
  if l.any (fun x => decide (x.handler = downgradeHook ∧ limit < x.time)) then
    (if (l.map (capTask limit)).isEmpty then some none else some (some (l.map (capTask limit))))
  else none

/-- upgrade.go:781-793 -/
def capInfo (limit : Int) (_ : Key) (r : Info) : Option (Option Info) :=
  match r.downgradeAt with
  | none => none
  | some d => if limit < d then some (some { r with downgradeAt := some limit }) else none

/-- `UpdateStatusDowngradeTasks`, upgrade.go:725-802 -/
def capDowngrades (s : State) : State :=
  { s with
    sched := { s.sched with store := s.sched.store.rewrite (capBucket (s.now + 2 * s.day)) }
    store := s.store.rewrite (capInfo (s.now + 2 * s.day)) }

/-- upgrade.go:849-851 -/
def astray (now key : Int) (x : Task) : Bool := decide (x.handler = downgradeHook ∧ key ≠ x.time ∧ x.time < now)

/-- upgrade.go:840-871 -/
def dropAstray (now key : Int) (l : List Task) : Option (Option (List Task)) :=
  if l.any (astray now key) then
    (if (l.filter fun x => !astray now key x).isEmpty then some none else some (some (l.filter fun x => !astray now key x)))
  else none

/-- `incorrectTasks`, upgrade.go:847-862 -/
def strays (now : Int) (s : Schedule.State) : List Task := (s.store.entries.map fun e => e.2.filter (astray now e.1)).flatten

/-- upgrade.go:874-889, `none` = panic in `Key`.  Instead of the stored schedule, the key itself is decoded; for times from 27 March 2020 to 19 October 2024
its first byte is 22 or 23, which is no tag of protobuf, so this fails and the schedule starts out empty. -/
def place? (time shift : Int) : List Task → KV Int (List Task) → Option (KV Int (List Task))
  | [], m => some m
  | x :: l, m => if Schedule.inRange (time + shift) then place? (time + shift) shift l (m.set (time + shift) [x]) else none

/-- `FixStatusDowngradeTasks`, upgrade.go:822-896, `none` = panic (in `Key`, which is called for the time of every downgrade as well, 851). -/
def relocate? (s : State) : Option State :=
  if s.sched.store.entries.all fun e => e.2.all fun x => x.handler != downgradeHook || Schedule.inRange x.time then
    (place? s.now s.shift (strays s.now s.sched) (s.sched.store.rewrite (dropAstray s.now))).map fun m => { s with sched := { s.sched with store := m } }
  else none

/-! ### Version 2.4.3: the dates -/

/-- C87: 2.4.3 moves the date of every downgrade that is more than two days away to two days from now, and changes nothing else of any record. -/
theorem C87_dates (s : State) (k : Key) :
    (capDowngrades s).store.get k = (s.store.get k).map fun r => { r with downgradeAt := r.downgradeAt.map fun d => min d (s.now + 2 * s.day) } := by
  show (s.store.rewrite _).get k = _
  rw [KV.get_rewrite]
  cases s.store.get k with
  | none => rfl
  | some r =>
    show (capInfo _ k r).getD (some r) = some _
    have e : ∀ x, r.downgradeAt = x → (capInfo (s.now + 2 * s.day) k r).getD (some r) = some { r with downgradeAt := x.map fun d => min d (s.now + 2 * s.day) } := by
      intro x hx
      subst hx
      obtain ⟨a1, a2, a3, a4, a5, a6, a7, x, a9, a10, a11⟩ := r
      unfold capInfo
      cases x with
      | none => rfl
      | some d =>
        show (if s.now + 2 * s.day < d then _ else _ : Option (Option Info)).getD _ = _
        by_cases hd : s.now + 2 * s.day < d
        · rw [if_pos hd]
          simp only [Option.getD_some, Option.map_some, min_eq_right (le_of_lt hd)]
        · rw [if_neg hd]
          simp only [Option.getD_none, Option.map_some, min_eq_left (not_lt.1 hd)]
    exact e _ rfl

theorem capTask_eq (limit : Int) (x : Task) : capTask limit x = if x.handler = 6 then { x with time := min x.time limit } else x := by
  unfold capTask downgradeHook
  by_cases h : x.handler = 6
  · by_cases h2 : limit < x.time
    · rw [if_pos ⟨h, h2⟩, if_pos h, min_eq_right (le_of_lt h2)]
    · rw [if_neg (fun g => h2 g.2), if_pos h, min_eq_left (not_lt.1 h2)]
  · rw [if_neg (fun g => h g.1), if_neg h]

theorem cap_get (s : State) (T : Int) :
    (capDowngrades s).sched.store.get T = (s.sched.store.get T).map fun l => l.map (capTask (s.now + 2 * s.day)) := by
  show (s.sched.store.rewrite _).get T = _
  rw [KV.get_rewrite]
  cases s.sched.store.get T with
  | none => rfl
  | some l =>
    show (capBucket _ T l).getD (some l) = some _
    unfold capBucket
    by_cases ha : (l.any fun x => decide (x.handler = downgradeHook ∧ s.now + 2 * s.day < x.time)) = true
    · rw [if_pos ha]
      have : (l.map (capTask (s.now + 2 * s.day))).isEmpty = false := by
        cases l with
        | nil => cases ha
        | cons => rfl
      rw [this]
      rfl
    · rw [if_neg ha]
      show some l = some _
      congr 1
      symm
      refine (List.map_congr_left fun x hx => ?_).trans (List.map_id l)
      show capTask _ x = x
      unfold capTask
      rw [if_neg]
      intro g
      exact ha (List.any_eq_true.2 ⟨x, hx, by simpa using g⟩)

/-- C87: all tasks stay where they were; those of downgrades carry the new date. -/
theorem C87_tasks (s : State) (T : Int) :
    (capDowngrades s).sched.store.get T =
      (s.sched.store.get T).map fun l => l.map fun x => if x.handler = 6 then { x with time := min x.time (s.now + 2 * s.day) } else x := by
  rw [cap_get]
  congr 2
  exact funext fun l => congrArg (fun f => List.map f l) (funext fun x => capTask_eq _ x)

/-- C87 fails for every downgrade that is moved: the account is told the new date, but the scheduler does not know of it, unless there was
a task for that very moment before. -/
theorem C87_unknown (s : State) (hi : ∀ T l, s.sched.store.get T = some l → ∀ x ∈ l, x.time = T) (k : Key) (r : Info) (hr : s.store.get k = some r) (d : Int) (hd : r.downgradeAt = some d)
    (hl : s.now + 2 * s.day < d) :
    (infoOf (capDowngrades s).store k).downgradeAt = some (s.now + 2 * s.day) ∧
    (Booked (capDowngrades s).sched (s.now + 2 * s.day) 6 k ↔ Booked s.sched (s.now + 2 * s.day) 6 k) := by
  refine ⟨?_, ?_⟩
  · have := C87_dates s k
    rw [hr, Option.map_some] at this
    rw [infoOf_get this]
    show r.downgradeAt.map _ = _
    rw [hd, Option.map_some, min_eq_right (le_of_lt hl)]
  · constructor
    · rintro ⟨x, ⟨l, hl, hx⟩, h1, h2, h3⟩
      rw [h1, cap_get] at hl
      obtain ⟨l', hl', rfl⟩ := Option.map_eq_some_iff.1 hl
      obtain ⟨y, hy, rfl⟩ := List.mem_map.1 hx
      have ht := hi _ _ hl' y hy
      have e : capTask (s.now + 2 * s.day) y = y := by unfold capTask; rw [if_neg (fun g => by omega)]
      rw [e] at h2 h3
      exact ⟨y, ⟨l', by rw [ht]; exact hl', hy⟩, ht, h2, h3⟩
    · rintro ⟨x, ⟨l, hl, hx⟩, h1, h2, h3⟩
      have e : capTask (s.now + 2 * s.day) x = x := by unfold capTask; rw [if_neg (fun g => by omega)]
      refine ⟨x, ⟨_, by rw [cap_get, hl]; rfl, List.mem_map.2 ⟨x, hx, e⟩⟩, h1, h2, h3⟩

theorem cap_entries (s : State) : (capDowngrades s).sched.store.entries = s.sched.store.entries.map fun e => (e.1, e.2.map (capTask (s.now + 2 * s.day))) := by
  have hs : SortedKeys (s.sched.store.entries.map fun e => (e.1, e.2.map (capTask (s.now + 2 * s.day)))) := by
    unfold SortedKeys
    rw [List.pairwise_map]
    exact s.sched.store.sorted
  have : (capDowngrades s).sched.store = ⟨_, hs⟩ := by
    refine KV.ext fun T => ?_
    rw [cap_get]
    show _ = KV.getL T (s.sched.store.entries.map _)
    have : ∀ l : List (Int × List Task), (KV.getL T l).map (fun l => l.map (capTask (s.now + 2 * s.day))) =
        KV.getL T (l.map fun e => (e.1, e.2.map (capTask (s.now + 2 * s.day)))) := by
      intro l
      induction l with
      | nil => rfl
      | cons a l ih =>
        obtain ⟨k, v⟩ := a
        simp only [KV.getL, List.map_cons]
        split
        · rfl
        · exact ih
    exact this _
  rw [this]

/-- C87 fails: 2.4.3 does not change when tasks are run.  In every block the same tasks are run as without it, in the same order. -/
theorem C87_still_late (s : State) (handlers : Schedule.Handlers) (now : Int) :
    (Schedule.performSchedule handlers now (capDowngrades s).sched).2 =
      (Schedule.performSchedule handlers now s.sched).2.map fun x => if x.handler = 6 then { x with time := min x.time (s.now + 2 * s.day) } else x := by
  have e : (fun x : Task => if x.handler = 6 then { x with time := min x.time (s.now + 2 * s.day) } else x) = capTask (s.now + 2 * s.day) := by
    funext x; exact (capTask_eq _ x).symm
  rw [e, Schedule.performSchedule_log, Schedule.performSchedule_log, cap_entries, List.filter_map, List.map_map, List.map_flatten, List.map_map]
  rfl

/-! ### Version 2.4.4: the tasks -/

theorem place_get {shift : Int} (hs : 0 < shift) : ∀ {l : List Task} {time : Int} {m m' : KV Int (List Task)}, place? time shift l m = some m' →
    (∀ (i : Nat) (hi : i < l.length), m'.get (time + shift * (i + 1)) = some [l[i]]) ∧
    ∀ T, (∀ i : Nat, i < l.length → T ≠ time + shift * (i + 1)) → m'.get T = m.get T := by
  intro l
  induction l with
  | nil =>
    intro time m m' h
    unfold place? at h
    cases h
    exact ⟨fun i hi => absurd hi (by simp), fun _ _ => rfl⟩
  | cons x l ih =>
    intro time m m' h
    unfold place? at h
    split at h
    · obtain ⟨h1, h2⟩ := ih h
      have e : ∀ i : Nat, time + shift * (((i + 1 : Nat) : Int) + 1) = time + shift + shift * (i + 1) := fun i => by push_cast; ring
      refine ⟨fun i hi => ?_, fun T hT => ?_⟩
      · cases i with
        | zero =>
          rw [h2]
          · rw [KV.get_set, if_pos (by norm_num)]
            rfl
          · intro j _ he
            have : (0 : Int) < shift * (j + 1) := Int.mul_pos hs (by omega)
            norm_num at he
            omega
        | succ i =>
          rw [e i]
          exact h1 i (by simpa using hi)
      · rw [h2 T (fun i hi => by rw [← e i]; exact hT (i + 1) (by simpa using hi)), KV.get_set_ne]
        have := hT 0 (by simp)
        norm_num at this
        exact this
    · cases h

theorem drop_get (now : Int) (m : KV Int (List Task)) (T : Int) :
    ((m.rewrite (dropAstray now)).get T).getD [] = ((m.get T).getD []).filter fun x => !astray now T x := by
  rw [KV.get_rewrite]
  cases m.get T with
  | none => rfl
  | some l =>
    show ((dropAstray now T l).getD (some l)).getD [] = l.filter _
    unfold dropAstray
    by_cases ha : l.any (astray now T) = true
    · rw [if_pos ha]
      split
      · next h => exact (List.isEmpty_iff.1 h).symm
      · rfl
    · rw [if_neg ha]
      symm
      show l.filter _ = l
      rw [List.filter_eq_self]
      intro x hx
      rw [Bool.not_eq_true', Bool.eq_false_iff]
      exact fun g => ha (List.any_eq_true.2 ⟨x, hx, g⟩)

/-- C87: 2.4.4 takes the tasks of downgrades that are overdue by what they say but kept for another moment, and runs them one by one, a quarter of
a minute apart; everything else stays where it was, unless it was scheduled for one of these moments. -/
theorem C87_relocated (s t : State) (h : relocate? s = some t) (hs : 0 < s.shift) :
    t.store = s.store ∧
    ∃ bad : List Task, bad = (s.sched.store.entries.map fun e => e.2.filter fun x => decide (x.handler = 6 ∧ x.time ≠ e.1 ∧ x.time < s.now)).flatten ∧
    (∀ (i : Nat) (hi : i < bad.length), t.sched.store.get (s.now + s.shift * (i + 1)) = some [bad[i]]) ∧
    ∀ T, (∀ i : Nat, i < bad.length → T ≠ s.now + s.shift * (i + 1)) →
      (t.sched.store.get T).getD [] = ((s.sched.store.get T).getD []).filter fun x => decide (¬ (x.handler = 6 ∧ x.time ≠ T ∧ x.time < s.now)) := by
  unfold relocate? at h
  split at h
  · obtain ⟨m, hm, rfl⟩ := Option.map_eq_some_iff.1 h
    obtain ⟨h1, h2⟩ := place_get hs hm
    have ea : ∀ T x, astray s.now T x = decide (x.handler = 6 ∧ x.time ≠ T ∧ x.time < s.now) := by
      intro T x
      unfold astray downgradeHook
      rw [decide_eq_decide]
      exact ⟨fun g => ⟨g.1, g.2.1.symm, g.2.2⟩, fun g => ⟨g.1, g.2.1.symm, g.2.2⟩⟩
    refine ⟨rfl, strays s.now s.sched, ?_, h1, fun T hT => ?_⟩
    · unfold strays
      simp only [← ea]
    · show (m.get T).getD [] = _
      rw [h2 T hT, drop_get]
      congr 1
      funext x
      rw [ea, decide_not]
  · cases h

/-- C87: each of them is run no later than `n` quarters of a minute from now, if there are `n`. -/
theorem C87_rescued (s t : State) (h : relocate? s = some t) (hs : 0 < s.shift) (T : Int) (l : List Task) (hl : s.sched.store.get T = some l) (x : Task)
    (hx : x ∈ l) (h6 : x.handler = 6) (hT : x.time ≠ T) (hn : x.time < s.now) (handlers : Schedule.Handlers) (now : Int)
    (hw : s.now + s.shift * ((s.sched.store.entries.map fun e => e.2.filter fun x => decide (x.handler = 6 ∧ x.time ≠ e.1 ∧ x.time < s.now)).flatten).length ≤ now) :
    x ∈ (Schedule.performSchedule handlers now t.sched).2 := by
  obtain ⟨-, bad, hb, h1, -⟩ := C87_relocated s t h hs
  rw [← hb] at hw
  have hm : x ∈ bad := by
    rw [hb, List.mem_flatten]
    exact ⟨_, List.mem_map.2 ⟨(T, l), KV.mem_entries.2 hl, rfl⟩, List.mem_filter.2 ⟨hx, by simp [h6, hT, hn]⟩⟩
  obtain ⟨i, hi, rfl⟩ := List.getElem_of_mem hm
  rw [Schedule.performSchedule_log, List.mem_flatten]
  refine ⟨[bad[i]], List.mem_map.2 ⟨(s.now + s.shift * (i + 1), [bad[i]]), List.mem_filter.2 ⟨KV.mem_entries.2 (h1 i hi), ?_⟩, rfl⟩, by simp⟩
  rw [decide_eq_true_eq]
  have : s.shift * (i + 1) ≤ s.shift * bad.length := Int.mul_le_mul_of_nonneg_left (by omega) (le_of_lt hs)
  show s.now + s.shift * (i + 1) < now + 1
  omega

/-- C87, both together: a downgrade that 2.4.3 moved is rescued by 2.4.4, if that comes after the new date. -/
theorem C87_rescued_in_the_end (s t : State) (k : Key) (d : Int) (hb : Booked s.sched d 6 k) (hd : s.now + 2 * s.day < d)
    (n : Int) (hn : s.now + 2 * s.day < n) (h : relocate? ((capDowngrades s).waits n) = some t) (hs : 0 < s.shift) :
    ∀ (handlers : Schedule.Handlers) (now : Int), n + s.shift * (Schedule.exportTasks s.sched).length ≤ now →
      ∃ x ∈ (Schedule.performSchedule handlers now t.sched).2, x.handler = 6 ∧ x.data = [k] := by
  obtain ⟨x, ⟨l, hl, hx⟩, h1, h2, h3⟩ := hb
  have e : capTask (s.now + 2 * s.day) x = { x with time := s.now + 2 * s.day } := by
    unfold capTask
    rw [if_pos ⟨h2, by omega⟩]
  intro handlers now hw
  refine ⟨capTask (s.now + 2 * s.day) x, ?_, by rw [e]; exact h2, by rw [e]; exact h3⟩
  refine C87_rescued ((capDowngrades s).waits n) t h hs d (l.map (capTask (s.now + 2 * s.day))) ?_ _ (List.mem_map.2 ⟨x, hx, rfl⟩) (by rw [e]; exact h2)
    (by rw [e]; show s.now + 2 * s.day ≠ d; omega) (by rw [e]; exact hn) handlers now (le_trans ?_ hw)
  · show (capDowngrades s).sched.store.get d = _
    rw [cap_get, ← h1, hl]
    rfl
  · have hlen : ∀ (E : List (Int × List Task)) (p : Int × List Task → Task → Bool) (f : Task → Task),
        (((E.map fun e => (e.1, e.2.map f)).map fun e => e.2.filter (p e)).flatten).length ≤ ((E.map Prod.snd).flatten).length := by
      intro E p f
      induction E with
      | nil => simp
      | cons a E ih =>
        simp only [List.map_cons, List.flatten_cons, List.length_append]
        have := List.length_filter_le (p (a.1, a.2.map f)) (a.2.map f)
        rw [List.length_map] at this
        omega
    have := hlen s.sched.store.entries (fun e x => decide (x.handler = 6 ∧ x.time ≠ e.1 ∧ x.time < n)) (capTask (s.now + 2 * s.day))
    rw [← cap_entries] at this
    have := Int.mul_le_mul_of_nonneg_left (Int.ofNat_le.2 this) (le_of_lt hs)
    exact Int.add_le_add_left this n

end Referral
end Verif
