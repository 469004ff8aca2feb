import Verif.Voting.Props
import Verif.Base.Rebuild

/-! Property C55: export and import of the voting module. -/
namespace Verif.Voting
open Verif.Util
open Verif.Schedule (Pending Inv)

variable {W : Type}

/-- `GenesisState`, proto/artery/voting/v1beta1/genesis.proto, without the parameters (which are read from and written to the
parameter store as they are). -/
structure Genesis where
  government : List Name
  /-- type "unspecified" = `none` (no such proposal is ever accepted, types/types.go:286-288) -/
  current : Option Proposal
  startBlock : Int
  agreed : List Name
  disagreed : List Name
  history : List Record
  poll : Option Poll
  pollAnswers : List (Name × Bool)
  pollHistory : List PollItem
deriving DecidableEq

/-- The text a store key was made of (keeper.go:729). -/
def nameOf (k : Nat) : Name := ⟨k / 2, decide (k % 2 = 1)⟩

/-- `ExportGenesis`, genesis.go:36-62, with `GetHistory` (keeper.go:411-435, the limit is never reached), `GetPollHistoryAll`
(keeper.go:685-707) and `IterateThroughCurrentPollAnswers` (keeper.go:709-737). -/
def exportGenesis (s : State W) : Genesis where
  government := s.gov
  current := s.current
  startBlock := if s.current.isSome then s.startBlock.getD 0 else 0
  agreed := s.agreed
  disagreed := s.disagreed
  history := s.history.values
  poll := s.poll
  pollAnswers := if s.poll.isSome then s.answers.entries.map fun x => (nameOf x.1, x.2) else []
  pollHistory := s.pollHistory.values

/-- `if err := …; err != nil { panic(err) }` -/
def must (m : M (State W) Unit) : M (State W) Unit := fun s =>
  match m s with
  | (.err, t) => (.panic, t)
  | x => x

/-- `LoadPolls`, keeper.go:737-755: the answers are given once more. -/
def loadPolls (e : Env W) (g : Genesis) : M (State W) Unit := do
  match g.poll with
  | none => pure ()
  | some q => do
    M.modify fun s => { s with poll := some q }
    M.forEach g.pollAnswers fun x => must (answer e x.1 x.2)
  M.modify fun s => { s with
    pollHistory := g.pollHistory.foldl (fun m x => m.set (x.poll.endTime / 1000000000) x) s.pollHistory }

/-- `InitGenesis`, genesis.go:13-31, with `AddProposalHistoryRecord`, keeper.go:179-190.  It runs on an empty store. -/
def initGenesis (e : Env W) (g : Genesis) : M (State W) Unit := do
  M.modify fun s => { s with gov := g.government }
  M.modify fun s => match g.current with
    | none => s
    | some p => { s with current := some p, startBlock := some g.startBlock }
  M.modify fun s => if g.agreed.length > 0 then { s with agreed := g.agreed } else s
  M.modify fun s => if g.disagreed.length > 0 then { s with disagreed := g.disagreed } else s
  M.modify fun s => { s with history := g.history.foldl (fun m x => m.set x.finished x) s.history }
  loadPolls e g

/-! ### The invariant of the archives -/

/-- Records are stored under their own height, polls under their own end. -/
structure Keyed (s : State W) : Prop where
  history : ∀ h r, s.history.get h = some r → r.finished = h
  polls : ∀ k x, s.pollHistory.get k = some x → x.poll.endTime / 1000000000 = k

theorem onSched_keyed (r : Schedule.Req) : M.Preserves (Keyed (W := W)) (onSched r) := by
  intro s hs
  unfold onSched
  cases r.exec? s.sched with
  | none => exact hs
  | some t => exact ⟨hs.history, hs.polls⟩

theorem saveToHistory_keyed (e : Env W) : M.Preserves Keyed (saveToHistory e) := by
  refine .bind .get fun s => .bind (.orPanic _) fun p => .bind (.orPanic _) fun b => .modify fun s hs => ⟨fun h r hr => ?_, hs.polls⟩
  dsimp only at hr
  rw [KV.get_set] at hr
  split at hr
  · rename_i hh
    injection hr with hr
    subst hr; exact hh.symm
  · exact hs.history h r hr

theorem enact_keyed (e : Env W) (k : Kind) : M.Preserves Keyed (enact e k) := by
  unfold enact
  split
  · exact .modify fun s hs => ⟨hs.history, hs.polls⟩
  · exact .modify fun s hs => ⟨hs.history, hs.polls⟩
  · intro s hs
    unfold onWorld
    split <;> exact ⟨hs.history, hs.polls⟩

theorem endProposal_keyed (e : Env W) (p : Proposal) (ag : Bool) : M.Preserves Keyed (endProposal e p ag) := by
  refine .bind (onSched_keyed _) fun _ => .bind (saveToHistory_keyed e) fun _ => .bind (.modify fun s hs => ⟨hs.history, hs.polls⟩) fun _ => ?_
  split
  · exact enact_keyed e _
  · exact .pure _

theorem propose_keyed (e : Env W) (msg : Proposal) : M.Preserves Keyed (propose e msg) := by
  refine .bind .get fun s => .bind (.errIf _) fun _ => .bind (.errIf _) fun _ => .bind (.modify fun s hs => ⟨hs.history, hs.polls⟩) fun _ =>
    .bind (onSched_keyed _) fun _ => .bind (.modify fun s hs => ⟨hs.history, hs.polls⟩) fun _ => ?_
  split
  · exact endProposal_keyed e _ _
  · exact .pure _

theorem vote_keyed (e : Env W) (v : Addr) (y : Bool) : M.Preserves Keyed (vote e v y) := by
  refine .bind .get fun s => ?_
  split
  · exact fun _ h => h
  · refine .bind (.errIf _) fun _ => .bind (.errIf _) fun _ => .bind (.errIf _) fun _ => .bind (.modify fun s hs => ⟨hs.history, hs.polls⟩) fun _ => ?_
    generalize (validate s.gov (if y = true then append s.agreed v else s.agreed) (if y = true then s.disagreed else append s.disagreed v)) = r
    split
    · exact endProposal_keyed e _ _
    · exact .pure _

theorem startPoll_keyed (e : Env W) (msg : Poll) : M.Preserves Keyed (startPoll e msg) :=
  .bind (.errIf _) fun _ => .bind .get fun _ => .bind (.errIf _) fun _ => .bind (.errIf _) fun _ => .bind (onSched_keyed _) fun _ =>
    .modify fun _ hs => ⟨hs.history, hs.polls⟩

theorem answer_keyed (e : Env W) (n : Name) (y : Bool) : M.Preserves Keyed (answer e n y) := by
  refine .bind .get fun s => ?_
  split
  · exact fun _ h => h
  · exact .bind (.orPanic _) fun _ => .bind (.errIf _) fun _ => .bind (.errIf _) fun _ => .modify fun _ hs => ⟨hs.history, hs.polls⟩

theorem processSchedule_keyed (e : Env W) : M.Preserves Keyed (processSchedule e) := by
  refine .bind .get fun s => ?_
  split
  · exact .pure _
  · exact endProposal_keyed e _ _

theorem endPoll_keyed : M.Preserves (Keyed (W := W)) endPoll := by
  refine .bind .get fun s => .bind (.orPanic _) fun q => .bind (.orPanic _) fun d => .modify fun s hs => ⟨hs.history, fun k x hx => ?_⟩
  dsimp only at hx
  rw [KV.get_set] at hx
  split at hx
  · rename_i hh
    injection hx with hx
    subst hx; exact hh.symm
  · exact hs.polls k x hx

theorem runTasks_keyed (e : Env W) (f : Schedule.Task → Foreign W) : ∀ (l : List Schedule.Task) {s : State W}, Keyed s → Keyed (runTasks e f l s)
  | [], _, h => h
  | t :: ts, s, h => by
    refine runTasks_keyed e f ts ?_
    unfold runTask
    split
    · exact processSchedule_keyed e s h
    · split
      · exact endPoll_keyed s h
      · exact ⟨h.history, h.polls⟩

theorem step_keyed (e : Env W) (op : Op W) {s : State W} (h : Keyed s) : Keyed (op.run e s) := by
  cases op with
  | propose msg => exact (propose_keyed e msg).tx h
  | vote v y => exact (vote_keyed e _ y).tx h
  | startPoll msg => exact (startPoll_keyed e msg).tx h
  | answer n y => exact (answer_keyed e n y).tx h
  | foreign f => exact ⟨h.history, h.polls⟩
  | block f =>
    have := runTasks_keyed e f (dueTasks e.now s.sched) h
    exact ⟨this.history, this.polls⟩

theorem run_keyed (l : List (Env W × Op W)) {s : State W} (h : Keyed s) : Keyed (run s l) := by
  induction l generalizing s with
  | nil => exact h
  | cons x l ih => exact ih (step_keyed x.1 x.2 h)

theorem fresh_keyed (gov : List Name) (sched : Schedule.State) (w : W) : Keyed (fresh gov sched w) :=
  ⟨fun h r hr => by simp [fresh] at hr, fun h r hr => by simp [fresh] at hr⟩

/-! ### The round trip -/

theorem nameOf_key (k : Nat) : (nameOf k).key = k := by
  unfold nameOf Name.key
  by_cases h : k % 2 = 1 <;> simp [h] <;> omega

theorem foldl_values {V : Type} {m : KV Int V} {f : V → Int} (h : ∀ k v, m.get k = some v → f v = k) :
    m.values.foldl (fun acc x => acc.set (f x) x) KV.empty = m := by
  have := KV.rebuild m Prod.snd (fun v => (f v, v)) (by
    rintro ⟨k, v⟩ hx
    simp [h k v (KV.mem_entries.1 hx)])
  exact this

/-- What replaying stored answers does to the counters and the answers. -/
theorem replay (e : Env W) (q : Poll) : ∀ (l : List (Nat × Bool)) (s : State W), s.poll = some q → SortedKeys l →
    (∀ x ∈ l, s.answers.get x.1 = none) → (∀ x ∈ l, allowed? e s.world (nameOf x.1) q.requirement = some true) →
    s.yes < 2 ^ 64 → s.no < 2 ^ 64 →
    M.forEach (l.map fun x => (nameOf x.1, x.2)) (fun x => must (answer e x.1 x.2)) s = (.ok (), { s with
      answers := l.foldl (fun acc x => acc.set x.1 x.2) s.answers
      yes := (s.yes + (l.filter (fun x => x.2)).length) % 2 ^ 64
      no := (s.no + (l.filter (fun x => !x.2)).length) % 2 ^ 64 }) := by
  intro l
  induction l with
  | nil =>
    intro s _ _ _ _ h1 h2
    simp only [List.map_nil, List.filter_nil, List.length_nil, Nat.add_zero, Nat.mod_eq_of_lt h1, Nat.mod_eq_of_lt h2]
    rfl
  | cons x l ih =>
    intro s hq hs hf ha hy hn
    have hs2 := List.pairwise_cons.1 hs
    have h1 : must (answer e (nameOf x.1) x.2) s = (.ok (), { s with
        answers := s.answers.set x.1 x.2
        yes := if x.2 then (s.yes + 1) % 2 ^ 64 else s.yes
        no := if x.2 then s.no else (s.no + 1) % 2 ^ 64 }) := by
      have hn : s.answers.has (nameOf x.1).key = false := by
        rw [nameOf_key]; unfold KV.has; rw [hf x (by simp)]; rfl
      unfold must answer
      simp only [M.bind_apply, M.get_apply, hq, ha x (by simp), M.orPanic_some, Bool.not_true, M.errIf_false, hn, M.modify_apply]
      rw [nameOf_key]
    rw [List.map_cons, M.forEach_cons, M.bind_ok h1, ih _ (by exact hq) hs2.2 ?_ ?_ ?_ ?_]
    · obtain ⟨k, b⟩ := x
      cases b
      · simp only [List.foldl_cons, List.filter_cons, Bool.not_false, Bool.false_eq_true, if_false, if_true, List.length_cons, Nat.mod_add_mod]
        rw [show s.no + 1 + (l.filter fun x => !x.2).length = s.no + ((l.filter fun x => !x.2).length + 1) by omega]
      · simp only [List.foldl_cons, List.filter_cons, Bool.not_true, Bool.false_eq_true, if_false, if_true, List.length_cons, Nat.mod_add_mod]
        rw [show s.yes + 1 + (l.filter fun x => x.2).length = s.yes + ((l.filter fun x => x.2).length + 1) by omega]
    · intro y hy
      rw [KV.get_set, if_neg (ne_of_gt (hs2.1 y hy))]
      exact hf y (by simp [hy])
    · intro y hy; exact ha y (by simp [hy])
    · dsimp only
      split
      · exact Nat.mod_lt _ (by decide)
      · exact hy
    · dsimp only
      split
      · exact hn
      · exact Nat.mod_lt _ (by decide)

theorem count_filter (m : KV Nat Bool) (b : Bool) : count m b = (m.entries.filter fun x => x.2 == b).length := by
  unfold count KV.values
  rw [List.filter_map, List.length_map]; rfl

theorem loadPolls_export (e : Env W) {s : State W} (hg : Good s) (hk : Keyed s) {t : State W} (hw : ∀ q, s.poll = some q → ∀ n y, s.answers.get n.key = some y →
      allowed? e t.world n q.requirement = some true) (h1 : t.poll = none) (h2 : t.yes = 0) (h3 : t.no = 0) (h4 : t.answers = KV.empty)
    (h5 : t.pollHistory = KV.empty) :
    loadPolls e (exportGenesis s) t = (.ok (), { t with poll := s.poll, yes := s.yes, no := s.no, answers := s.answers, pollHistory := s.pollHistory }) := by
  have hh : (exportGenesis s).pollHistory.foldl (fun m x => m.set (x.poll.endTime / 1000000000) x) t.pollHistory = s.pollHistory := by
    rw [h5]
    exact foldl_values hk.polls
  unfold loadPolls
  cases hp : s.poll with
  | none =>
    obtain ⟨i1, i2, i3⟩ := hg.poll.idle hp
    have : (exportGenesis s).poll = none := hp
    simp only [this, M.bind_apply, M.pure_apply, M.modify_apply, hh, i1, i2, i3]
    cases t
    simp_all
  | some q =>
    have : (exportGenesis s).poll = some q := hp
    have hans : (exportGenesis s).pollAnswers = s.answers.entries.map fun x => (nameOf x.1, x.2) := by
      simp [exportGenesis, hp]
    have hr := replay e q s.answers.entries { t with poll := some q } rfl s.answers.sorted (by intro x _; simp [h4])
      (by
        rintro ⟨k, y⟩ hx
        exact hw q hp (nameOf k) y (by rw [nameOf_key]; exact KV.mem_entries.1 hx))
      (by simp [h2]) (by simp [h3])
    simp only [this, hans, M.bind_apply, M.modify_apply, hr, hh]
    have hb := KV.rebuild s.answers id id (fun _ _ => rfl)
    rw [List.map_id] at hb
    simp only [id] at hb
    have hy : (t.yes + (s.answers.entries.filter fun x => x.2).length) % 2 ^ 64 = s.yes := by
      rw [hg.poll.yes, count_filter, h2]
      simp
    have hn : (t.no + (s.answers.entries.filter fun x => !x.2).length) % 2 ^ 64 = s.no := by
      rw [hg.poll.no, count_filter, h3]
      simp
    rw [h4, hb, hy, hn]

/-- **C55**: take any execution from a fresh start.  The exported file, imported into an empty chain, gives the same government, open
proposal with the votes cast and its start, archive, open poll with the answers and counts, and poll archive – provided everybody who
answered the open poll still meets its requirement when the file is imported (see `C55_lost_status`).  (The schedule is exported by its
own module, C17; `sched2`, `w2`: what the modules imported before have written.) -/
theorem C55_export_import_partial {gov : List Name} {sched : Schedule.State} (w : W) (hs : Start sched) (l : List (Env W × Op W)) (s : State W)
    (hl : run (fresh gov sched w) l = s) (e : Env W) (sched2 : Schedule.State) (w2 : W)
    (hw : ∀ q, s.poll = some q → ∀ n y, s.answers.get n.key = some y → allowed? e w2 n q.requirement = some true) :
    initGenesis e (exportGenesis s) (fresh [] sched2 w2) = (.ok (), { s with sched := sched2, world := w2 }) := by
  have hg : Good s := hl ▸ run_good l (fresh_good w hs)
  have hk : Keyed s := hl ▸ run_keyed l (fresh_keyed _ _ _)
  have hh : (exportGenesis s).history.foldl (fun m x => m.set x.finished x) KV.empty = s.history := foldl_values hk.history
  have hcur : (match (exportGenesis s).current with
      | none => { fresh [] sched2 w2 with gov := (exportGenesis s).government }
      | some p => { fresh [] sched2 w2 with gov := (exportGenesis s).government, current := some p, startBlock := some (exportGenesis s).startBlock }) =
      { fresh [] sched2 w2 with gov := s.gov, current := s.current, startBlock := s.startBlock } := by
    cases hc : s.current with
    | none =>
      rw [(hg.vote.idle hc).2.2.1]
      simp [exportGenesis, hc, fresh]
    | some p =>
      obtain ⟨⟨b, hb⟩, -⟩ := hg.vote.busy p hc
      rw [hb]
      simp [exportGenesis, hc, hb, fresh]
  have hag : ∀ (a : List Name) (t : State W), t.agreed = [] → (if a.length > 0 then { t with agreed := a } else t) = { t with agreed := a } := by
    intro a t ha
    cases a <;> cases t <;> simp_all
  have hdi : ∀ (a : List Name) (t : State W), t.disagreed = [] → (if a.length > 0 then { t with disagreed := a } else t) = { t with disagreed := a } := by
    intro a t ha
    cases a <;> cases t <;> simp_all
  unfold initGenesis
  rw [M.bind_ok (M.modify_apply _ _), M.bind_ok (M.modify_apply _ _)]
  have hcur2 : ∀ t : State W, t = { fresh [] sched2 w2 with gov := (exportGenesis s).government } → (match (exportGenesis s).current with
      | none => t
      | some p => { t with current := some p, startBlock := some (exportGenesis s).startBlock }) =
      { fresh [] sched2 w2 with gov := s.gov, current := s.current, startBlock := s.startBlock } := by
    rintro t rfl; exact hcur
  rw [hcur2 _ rfl, M.bind_ok (M.modify_apply _ _), M.bind_ok (M.modify_apply _ _), M.bind_ok (M.modify_apply _ _), hag _ _ rfl, hdi _ _ rfl]
  rw [loadPolls_export e hg hk hw rfl rfl rfl rfl rfl]
  show (Res.ok (), _) = _
  congr 1
  show (⟨_, _, _, _, _, (exportGenesis s).history.foldl (fun m x => m.set x.finished x) KV.empty, _, _, _, _, _, _, _⟩ : State W) = _
  rw [hh]
  rfl

/-! ### Examples and the limit -/

/-- A chain whose only outside fact is the status of account 2. -/
def statusEnv (now height : Int) : Env Int where
  now := now
  height := height
  hour := 10
  votingPeriod := 5
  pollPeriod := 5
  enact := fun _ w => (.ok (), w)
  qualified := fun _ _ => some true
  status := fun w n => if n.addr = 2 then some w else some 5

/-- A proposal refused by vote, another one open, a poll among accounts of status 4 or more, with two answers. -/
def busyRun : List (Env Int × Op Int) :=
  [(statusEnv 1 1, .propose ⟨1, text 1, .other 0, 0⟩), (statusEnv 2 2, .vote (text 2) false), (statusEnv 3 3, .vote (text 3) false),
   (statusEnv 4 4, .startPoll ⟨1, text 1, some ⟨1, 2⟩, .minStatus 4, 0, 0⟩), (statusEnv 4 4, .answer (text 3) false),
   (statusEnv 5 5, .propose ⟨2, text 3, .governmentAdd 4, 0⟩), (statusEnv 6 6, .answer (text 2) true)]

/-- Account 2 loses its status. -/
def drop : Foreign Int := ⟨fun _ => 3, []⟩

example : Start Schedule.State.empty := exampleStart

/-- The file before … -/
example : exportGenesis (run (fresh [text 1, text 2, text 3] Schedule.State.empty 4) busyRun) =
    ⟨[text 1, text 2, text 3], some ⟨2, text 3, .governmentAdd 4, 55⟩, 5, [text 3], [],
      [⟨⟨1, text 1, .other 0, 51⟩, [text 1, text 2, text 3], [text 1], [text 2, text 3], 1, 3⟩],
      some ⟨1, text 1, some ⟨1, 2⟩, .minStatus 4, 4, 54⟩, [(text 2, true), (text 3, false)], []⟩ := by decide +kernel

/-- … imports: the condition of `C55_export_import_partial` holds … -/
example : ∀ n y, (run (fresh [text 1, text 2, text 3] Schedule.State.empty 4) busyRun).answers.get n.key = some y →
    allowed? (statusEnv 0 0) 4 n (.minStatus 4) = some true := by
  intro n y _
  simp only [allowed?, statusEnv]
  split <;> rfl

/-- **C55**, the limit: the import gives the answers once more, requirements included.  After one respondent's status has dropped, the
chain's own export cannot be imported any more: the import panics. -/
theorem C55_lost_status : ∃ (l : List (Env Int × Op Int)) (s : State Int),
    s = run (fresh [text 1, text 2, text 3] Schedule.State.empty 4) l ∧
    (initGenesis (statusEnv 7 7) (exportGenesis s) (fresh [] s.sched s.world)).1 = .panic :=
  ⟨busyRun ++ [(statusEnv 7 7, .foreign drop)], _, rfl, by decide +kernel⟩

end Verif.Voting
