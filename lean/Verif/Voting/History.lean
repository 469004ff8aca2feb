import Verif.Voting.Props
import Mathlib.Data.List.Induction

/-!
Property C81: the archives of proposals and polls, and what the queries show of them.

The queries of keeper/keeper.go and keeper/query_server.go are modelled here.  The specification keeps minutes beside the execution:
which messages were accepted, by whom the government consisted, when a deadline passed.
-/
namespace Verif.Voting
open Verif.Util
open Verif.Schedule (Pending Inv)

variable {W : Type}

/-! ### The queries -/

/-- Conversion to `int32`. -/
def int32 (x : Int) : Int := Int.bmod x (2 ^ 32)

/-- The loop of `GetHistory`, keeper.go:421-432. -/
def historyLoop {α : Type} (start stop : Int) : Int → List α → List α
  | _, [] => []
  | current, x :: l =>
    if current < stop then
      if current < start then historyLoop start stop (current + 1) l else x :: historyLoop start stop (current + 1) l
    else []

/-- `GetHistory`, keeper.go:411-435; `limit` and `page` are `int32`, and so are the products. -/
def getHistory (limit page : Int) (s : State W) : List Record :=
  historyLoop (int32 (limit * int32 (page - 1))) (int32 (limit * page)) 0 s.history.values

/-- `GetPollHistory`, keeper.go:688-707.  `sdk.KVStorePrefixIteratorPaginated` skips `(page - 1) * limit` entries, reckoned in
`uint` of 64 bits, and stops after `limit` (a fact about the SDK). -/
def getPollHistory (limit page : Int) (s : State W) : List PollItem :=
  if limit > 0 then (s.pollHistory.values.drop (((page - 1) * limit) % 2 ^ 64).toNat).take limit.toNat else s.pollHistory.values

/-- `QueryServer.Current`, query_server.go:40-64: without an open proposal everything is empty. -/
def queryCurrent (s : State W) : Option Proposal × List Name × List Name × List Name :=
  match s.current with
  | none => (none, [], [], [])
  | some p => (some p, s.gov, s.agreed, s.disagreed)

/-- `QueryServer.Poll`, query_server.go:77-93, with `GetCurrentPoll`, `GetPollStatus` (keeper.go:520-541); `none` = not found. -/
def queryPoll (s : State W) : Option (Poll × Nat × Nat) := s.poll.map fun q => (q, s.yes, s.no)

/-! ### The minutes -/

/-- A proposal under discussion: the block it was made in, and the votes in the order they were given. -/
structure Sitting where
  proposal : Proposal
  since : Int
  votes : List (Name × Bool)
deriving DecidableEq

/-- Those who said yes, those who said no. -/
def ayes (l : List (Name × Bool)) : List Name := (l.filter (fun x => x.2)).map Prod.fst
def noes (l : List (Name × Bool)) : List Name := (l.filter (fun x => !x.2)).map Prod.fst

/-- What should be put on record. -/
def Sitting.record (g : Sitting) (gov : List Name) (height : Int) : Record := ⟨g.proposal, gov, ayes g.votes, noes g.votes, g.since, height⟩

/-- The minutes of a chain: the proposal under discussion, those ended; the poll under way with its answers, and those closed. -/
structure Minutes where
  sitting : Option Sitting := none
  ended : List Record := []
  survey : Option (Poll × List (Name × Bool)) := none
  closed : List (Poll × List (Name × Bool)) := []
deriving DecidableEq

/-- A vote was given: with the last one the discussion ends. -/
def Minutes.after (m : Minutes) (gov : List Name) (height : Int) (g : Sitting) : Minutes :=
  if gov.length = g.votes.length then { m with sitting := none, ended := m.ended ++ [g.record gov height] } else { m with sitting := some g }

/-- A new block: whose time is up? -/
def Minutes.deadline (m : Minutes) (gov : List Name) (now height : Int) : Minutes :=
  let m := match m.sitting with
    | some g => if g.proposal.endTime ≤ now then { m with sitting := none, ended := m.ended ++ [g.record gov height] } else m
    | none => m
  match m.survey with
  | some x => if x.1.endTime ≤ now then { m with survey := none, closed := m.closed ++ [x] } else m
  | none => m

/-- One line of the minutes, written from the message, whether it was accepted, the moment and the government. -/
def note (e : Env W) (s : State W) (m : Minutes) : Op W → Minutes
  | .propose msg =>
    if M.succeeds (propose e msg) s then
      m.after s.gov e.height ⟨{ msg with endTime := e.now + e.votingPeriod * e.hour }, e.height, [(msg.author, true)]⟩
    else m
  | .vote v y =>
    match m.sitting with
    | some g => if M.succeeds (vote e v.parse y) s then m.after s.gov e.height { g with votes := g.votes ++ [(text v.parse, y)] } else m
    | none => m
  | .startPoll msg =>
    if M.succeeds (startPoll e msg) s then
      { m with survey := some ({ msg with startTime := e.now, endTime := e.now + e.pollPeriod * e.hour }, []) }
    else m
  | .answer n y =>
    match m.survey with
    | some (q, a) => if M.succeeds (answer e n y) s then { m with survey := some (q, a ++ [(n, y)]) } else m
    | none => m
  | .foreign _ => m
  | .block _ => m.deadline s.gov e.now e.height

/-- The minutes of an execution. -/
def minutes (s : State W) (m : Minutes) : List (Env W × Op W) → Minutes
  | [] => m
  | (e, op) :: r => minutes (op.run e s) (note e s m op) r

/-- What the archive of polls should say about one. -/
noncomputable def itemOf (x : Poll × List (Name × Bool)) : PollItem :=
  ⟨x.1, (ayes x.2).length, (noes x.2).length, verdict x.1.quorum (ayes x.2).length (noes x.2).length⟩

/-- The last entry of a list with a key. -/
def lastAt {α : Type} (key : α → Int) (l : List α) (k : Int) : Option α := (l.filter (fun x => key x = k)).getLast?

/-! ### The store agrees with the minutes -/

structure KeptVote (m : Minutes) (s : State W) : Prop where
  current : s.current = m.sitting.map Sitting.proposal
  sitting : ∀ g, m.sitting = some g → s.startBlock = some g.since ∧ s.agreed = ayes g.votes ∧ s.disagreed = noes g.votes
  history : ∀ h, s.history.get h = lastAt Record.finished m.ended h

/-- `n`: the number of steps so far. -/
structure KeptPoll (n : Nat) (m : Minutes) (s : State W) : Prop where
  poll : s.poll = m.survey.map Prod.fst
  survey : ∀ q a, m.survey = some (q, a) → s.yes = (ayes a).length ∧ s.no = (noes a).length ∧ a.length ≤ n
  history : ∀ k, s.pollHistory.get k = lastAt (fun x => x.poll.endTime / 1000000000) (m.closed.map itemOf) k

theorem lastAt_snoc {α : Type} (key : α → Int) (l : List α) (x : α) (k : Int) :
    lastAt key (l ++ [x]) k = if k = key x then some x else lastAt key l k := by
  unfold lastAt
  rw [List.filter_append]
  by_cases h : k = key x
  · rw [if_pos h, List.filter_cons_of_pos (by simp [h])]
    simp
  · rw [if_neg h, List.filter_cons_of_neg (by simpa using fun hh => h hh.symm)]
    simp

theorem ayes_noes_length (l : List (Name × Bool)) : (ayes l).length + (noes l).length = l.length := by
  unfold ayes noes
  rw [List.length_map, List.length_map]
  induction l with
  | nil => rfl
  | cons x l ih =>
    obtain ⟨n, b⟩ := x
    cases b <;> simp <;> omega

theorem ayes_snoc (l : List (Name × Bool)) (n : Name) (y : Bool) : ayes (l ++ [(n, y)]) = if y then ayes l ++ [n] else ayes l := by
  unfold ayes
  cases y <;> simp [List.filter_append]

theorem noes_snoc (l : List (Name × Bool)) (n : Name) (y : Bool) : noes (l ++ [(n, y)]) = if y then noes l else noes l ++ [n] := by
  unfold noes
  cases y <;> simp [List.filter_append]

theorem afterVote_snoc (l : List (Name × Bool)) (v : Addr) (y : Bool) :
    afterVote (ayes l) (noes l) v y = (ayes (l ++ [(text v, y)]), noes (l ++ [(text v, y)])) := by
  rw [ayes_snoc, noes_snoc]
  unfold afterVote
  cases y <;> rfl

/-! The end of a discussion. -/

theorem KeptVote.finish {m : Minutes} {s t : State W} {gov : List Name} {h : Int} {g : Sitting} (hk : KeptVote m s)
    (hc : t.current = none) (hh : t.history = s.history.set h (g.record gov h)) :
    KeptVote { m with sitting := none, ended := m.ended ++ [g.record gov h] } t := by
  refine ⟨hc, fun g hg => (by cases hg), fun k => ?_⟩
  rw [hh, KV.get_set, lastAt_snoc, hk.history]
  rfl

theorem KeptVote.congr {m m' : Minutes} {s t : State W} (hk : KeptVote m s) (hs : SameVote s t) (h1 : m'.sitting = m.sitting)
    (h2 : m'.ended = m.ended) : KeptVote m' t := by
  refine ⟨by rw [hs.current, h1]; exact hk.current, fun g hg => ?_, fun k => by rw [hs.history, h2]; exact hk.history k⟩
  rw [hs.startBlock, hs.agreed, hs.disagreed]
  exact hk.sitting g (h1 ▸ hg)

theorem KeptPoll.congr {n : Nat} {m m' : Minutes} {s t : State W} (hk : KeptPoll n m s) (hs : SamePoll s t) (h1 : m'.survey = m.survey)
    (h2 : m'.closed = m.closed) : KeptPoll (n + 1) m' t := by
  refine ⟨by rw [hs.poll, h1]; exact hk.poll, fun q a hq => ?_, fun k => by rw [hs.history, h2]; exact hk.history k⟩
  rw [hs.yes, hs.no]
  obtain ⟨a1, a2, a3⟩ := hk.survey q a (h1 ▸ hq)
  exact ⟨a1, a2, by omega⟩

theorem after_vote {m : Minutes} {gov : List Name} {h : Int} {g : Sitting} {s o t : State W} (hk : KeptVote m s)
    (ho : o.history = s.history) (hc : o.current = some g.proposal) (hb : o.startBlock = some g.since) (ha : o.agreed = ayes g.votes)
    (hd : o.disagreed = noes g.votes)
    (hend : gov.length = g.votes.length → t.current = none ∧ t.history = o.history.set h (g.record gov h))
    (hstay : gov.length ≠ g.votes.length → t = o) : KeptVote (m.after gov h g) t := by
  unfold Minutes.after
  split
  · next hl =>
    obtain ⟨h1, h2⟩ := hend hl
    exact hk.finish h1 (by rw [h2, ho])
  · next hl =>
    rw [hstay hl]
    refine ⟨hc, fun g' hg => ?_, fun k => by rw [ho]; exact hk.history k⟩
    injection hg with hg
    subst hg
    exact ⟨hb, ha, hd⟩

theorem after_poll {m : Minutes} {gov : List Name} {h : Int} {g : Sitting} :
    (m.after gov h g).survey = m.survey ∧ (m.after gov h g).closed = m.closed := by
  unfold Minutes.after
  split <;> exact ⟨rfl, rfl⟩

theorem propose_samePoll (e : Env W) (msg : Proposal) {s : State W} (hg : Good s) : SamePoll s (M.tx (propose e msg) s) := by
  rcases M.tx_cases (propose e msg) s with ⟨u, h⟩ | ⟨-, h⟩
  · obtain ⟨-, hm, o, ho, h1, h2, h3, h4, h5, h6, h7, h8, h9⟩ := propose_ok hg h
    split at h9
    · obtain ⟨-, ⟨id, hid⟩, -⟩ := ho.vote.busy _ h3
      obtain ⟨hcl, -⟩ := endProposal_ok (s := o) ho.inv (Pending.inRange ho.inv hid) h3 h6 h9
      exact h8.trans hcl.poll
    · rw [h9]; exact h8
  · rw [h]; exact ⟨rfl, rfl, rfl, rfl, rfl⟩

theorem vote_samePoll (e : Env W) (v : Addr) (y : Bool) {s : State W} (hg : Good s) : SamePoll s (M.tx (vote e v y) s) := by
  rcases M.tx_cases (vote e v y) s with ⟨u, h⟩ | ⟨-, h⟩
  · obtain ⟨p, hc, h1, h2, h3, o, ho, h4⟩ := vote_ok h
    obtain ⟨⟨b, hb⟩, ⟨id, hid⟩, hv, -, hau⟩ := hg.vote.busy p hc
    have hso : SamePoll s o := by rw [ho]; exact ⟨rfl, rfl, rfl, rfl, rfl⟩
    split at h4
    · obtain ⟨hcl, -⟩ := endProposal_ok (s := o) (by rw [ho]; exact hg.inv) (Pending.inRange hg.inv hid)
        (by rw [ho]; exact hc) (show o.startBlock = some b by rw [ho]; exact hb) h4
      exact hso.trans hcl.poll
    · rw [h4]; exact hso
  · rw [h]; exact ⟨rfl, rfl, rfl, rfl, rfl⟩

theorem runTasks_noPoll (e : Env W) (f : Schedule.Task → Foreign W) (l : List Schedule.Task) : ∀ {s : State W}, Mid e.now s → s.poll = none →
    (runTasks e f l s).poll = none ∧ (runTasks e f l s).pollHistory = s.pollHistory := by
  induction l with
  | nil => exact fun _ hn => ⟨hn, rfl⟩
  | cons t ts ih =>
    intro u hm hn
    have hm' := runTask_mid e f (t := t) hm (fun _ q' hq' => by rw [hn] at hq'; cases hq')
    have hsame : (runTask e f t u).poll = none ∧ (runTask e f t u).pollHistory = u.pollHistory := by
      unfold runTask
      split
      · rcases hc : u.current with _ | p
        · rw [processSchedule_none e hc]; exact ⟨hn, rfl⟩
        · obtain ⟨b, w, hb, h1, h2⟩ := processSchedule_ends e hm.inv hm.vote hc
          rw [h2]; exact ⟨h1.poll.poll.trans hn, h1.poll.history⟩
      · split
        · rw [endPoll_none hn]; exact ⟨hn, rfl⟩
        · exact ⟨hn, rfl⟩
    obtain ⟨g1, g2⟩ := ih hm' hsame.1
    exact ⟨g1, g2.trans hsame.2⟩

/-! Steps. -/

theorem deadline_sitting (m : Minutes) (gov : List Name) (now h : Int) :
    ((m.deadline gov now h).sitting, (m.deadline gov now h).ended) = match m.sitting with
      | some g => if g.proposal.endTime ≤ now then (none, m.ended ++ [g.record gov h]) else (some g, m.ended)
      | none => (none, m.ended) := by
  unfold Minutes.deadline
  obtain ⟨a, b, c, d⟩ := m
  cases a <;> cases c <;> dsimp only <;> (repeat' split) <;> simp_all

theorem deadline_survey (m : Minutes) (gov : List Name) (now h : Int) :
    ((m.deadline gov now h).survey, (m.deadline gov now h).closed) = match m.survey with
      | some x => if x.1.endTime ≤ now then (none, m.closed ++ [x]) else (some x, m.closed)
      | none => (none, m.closed) := by
  unfold Minutes.deadline
  obtain ⟨a, b, c, d⟩ := m
  cases a <;> cases c <;> dsimp only <;> (repeat' split) <;> simp_all <;> omega

theorem step_keptVote (e : Env W) (op : Op W) {s : State W} (hg : Good s) {m : Minutes} (hk : KeptVote m s) :
    KeptVote (note e s m op) (op.run e s) := by
  cases op with
  | propose msg =>
    show KeptVote (if M.succeeds (propose e msg) s then _ else m) (M.tx (propose e msg) s)
    rcases M.tx_cases (propose e msg) s with ⟨u, h⟩ | ⟨hf, h⟩
    · rw [if_pos (by unfold M.succeeds; rw [h]; rfl)]
      obtain ⟨hn, hm, o, ho, h1, h2, h3, h4, h5, h6, h7, h8, h9⟩ := propose_ok hg h
      refine after_vote hk h7 h3 h6 h4 h5 (fun hl => ?_) (fun hl => ?_)
      · rw [if_pos (by simpa using hl)] at h9
        obtain ⟨-, ⟨id, hid⟩, -⟩ := ho.vote.busy _ h3
        obtain ⟨hcl, hgw⟩ := endProposal_ok (s := o) ho.inv (Pending.inRange ho.inv hid) h3 h6 h9
        have hh := hcl.history
        rw [h1, h4, h5] at hh
        exact ⟨hcl.current, hh⟩
      · rw [if_neg (by simpa using hl)] at h9
        exact h9
    · rw [if_neg (by rw [hf]; simp), h]; exact hk
  | vote v y =>
    show KeptVote (match m.sitting with
      | some g => if M.succeeds (vote e v.parse y) s then _ else m
      | none => m) (M.tx (vote e v.parse y) s)
    rcases M.tx_cases (vote e v.parse y) s with ⟨u, h⟩ | ⟨hf, h⟩
    · obtain ⟨p, hc, h1, h2, h3, o, ho, h4⟩ := vote_ok h
      have hcur := hk.current
      rw [hc] at hcur
      cases hm : m.sitting with
      | none => rw [hm] at hcur; cases hcur
      | some g =>
        rw [hm] at hcur
        injection hcur with hcur
        subst hcur
        obtain ⟨k1, k2, k3⟩ := hk.sitting g hm
        dsimp only
        rw [if_pos (by unfold M.succeeds; rw [h]; rfl)]
        have e0 : afterVote s.agreed s.disagreed v.parse y = (ayes (g.votes ++ [(text v.parse, y)]), noes (g.votes ++ [(text v.parse, y)])) := by
          rw [k2, k3, afterVote_snoc]
        have e1 : o.agreed = ayes (g.votes ++ [(text v.parse, y)]) := by rw [ho, e0]
        have e2 : o.disagreed = noes (g.votes ++ [(text v.parse, y)]) := by rw [ho, e0]
        have e3 : o.gov = s.gov := by rw [ho]
        have e4 : o.current = some g.proposal := by rw [ho]; exact hc
        have e5 : o.startBlock = some g.since := by rw [ho]; exact k1
        have e6 : o.sched = s.sched := by rw [ho]
        have e7 : o.agreed.length + o.disagreed.length = (g.votes ++ [(text v.parse, y)]).length := by rw [e1, e2, ayes_noes_length]
        obtain ⟨-, ⟨id, hid⟩, -⟩ := hg.vote.busy g.proposal hc
        refine after_vote (o := o) hk (by rw [ho]) e4 e5 e1 e2 (fun hl => ?_) (fun hl => ?_)
        · rw [if_pos (by rw [e7]; exact hl)] at h4
          obtain ⟨hcl, -⟩ := endProposal_ok (s := o) (by rw [e6]; exact hg.inv) (Pending.inRange hg.inv hid) e4 e5 h4
          have hh := hcl.history
          rw [e3, e1, e2] at hh
          exact ⟨hcl.current, hh⟩
        · rw [if_neg (by rw [e7]; exact hl)] at h4
          exact h4
    · rw [h]
      cases hm : m.sitting with
      | none => exact hk
      | some g => dsimp only; rw [if_neg (by rw [hf]; simp)]; exact hk
  | startPoll msg =>
    show KeptVote (if M.succeeds (startPoll e msg) s then _ else m) (M.tx (startPoll e msg) s)
    rcases M.tx_cases (startPoll e msg) s with ⟨u, h⟩ | ⟨hf, h⟩
    · rw [if_pos (by unfold M.succeeds; rw [h]; rfl)]
      obtain ⟨-, -, -, sc, -, h4⟩ := startPoll_ok h
      rw [h4]
      exact hk.congr ⟨rfl, rfl, rfl, rfl, rfl, rfl⟩ rfl rfl
    · rw [if_neg (by rw [hf]; simp), h]; exact hk
  | answer n y =>
    have hs : SameVote s (M.tx (answer e n y) s) := by
      rcases M.tx_cases (answer e n y) s with ⟨u, h⟩ | ⟨-, h⟩
      · obtain ⟨-, -, h4⟩ := answer_ok h
        rw [h4]; exact ⟨rfl, rfl, rfl, rfl, rfl, rfl⟩
      · rw [h]; exact ⟨rfl, rfl, rfl, rfl, rfl, rfl⟩
    refine hk.congr hs ?_ ?_ <;>
    · unfold note
      dsimp only
      split
      · split <;> rfl
      · rfl
  | foreign f => exact hk.congr (f.sameVote s) rfl rfl
  | block f =>
    have hd := deadline_sitting m s.gov e.now e.height
    have e1 := congrArg Prod.fst hd
    have e2 := congrArg Prod.snd hd
    dsimp only at e1 e2
    show KeptVote (m.deadline s.gov e.now e.height) (block e f s)
    cases hm : m.sitting with
    | none =>
      rw [hm] at e1 e2
      have hc : s.current = none := by rw [hk.current, hm]; rfl
      exact hk.congr (block_open e f hg (by rw [hc]; simp)) (by rw [e1, hm]) e2
    | some g =>
      rw [hm] at e1 e2
      dsimp only at e1 e2
      have hc : s.current = some g.proposal := by rw [hk.current, hm]; rfl
      obtain ⟨k1, k2, k3⟩ := hk.sitting g hm
      by_cases ht : g.proposal.endTime ≤ e.now
      · rw [if_pos ht] at e1 e2
        obtain ⟨b, hb, h1, h2, h3⟩ := block_deadline e f hg hc ht
        rw [k1] at hb
        injection hb with hb
        subst hb
        rw [k2, k3] at h3
        have := hk.finish (g := g) (gov := s.gov) (h := e.height) h1 h3
        exact ⟨by rw [e1]; exact this.current, by rw [e1]; exact this.sitting, by rw [e2]; exact this.history⟩
      · rw [if_neg ht] at e1 e2
        refine hk.congr (block_open e f hg ?_) (by rw [e1, hm]) e2
        rw [hc]
        intro p hp
        injection hp with hp
        subst hp
        omega

theorem step_keptPoll (e : Env W) (op : Op W) {s : State W} (hg : Good s) {n : Nat} (hn : n < 2 ^ 62) {m : Minutes} (hk : KeptPoll n m s) :
    KeptPoll (n + 1) (note e s m op) (op.run e s) := by
  cases op with
  | propose msg =>
    show KeptPoll (n + 1) (if M.succeeds (propose e msg) s then _ else m) (M.tx (propose e msg) s)
    refine hk.congr (propose_samePoll e msg hg) ?_ ?_ <;> split <;> first | exact after_poll.1 | exact after_poll.2 | rfl
  | vote v y =>
    refine hk.congr (vote_samePoll e v.parse y hg) ?_ ?_ <;>
    · unfold note
      dsimp only
      split
      · split <;> first | exact after_poll.1 | exact after_poll.2 | rfl
      · rfl
  | startPoll msg =>
    show KeptPoll (n + 1) (if M.succeeds (startPoll e msg) s then _ else m) (M.tx (startPoll e msg) s)
    rcases M.tx_cases (startPoll e msg) s with ⟨u, h⟩ | ⟨hf, h⟩
    · rw [if_pos (by unfold M.succeeds; rw [h]; rfl)]
      obtain ⟨-, h2, -, sc, -, h4⟩ := startPoll_ok h
      obtain ⟨i1, i2, -⟩ := hg.poll.idle h2
      rw [h4]
      refine ⟨rfl, fun q a hq => ?_, hk.history⟩
      injection hq with hq
      injection hq with _ hq
      subst hq
      exact ⟨i1, i2, by simp⟩
    · rw [if_neg (by rw [hf]; simp), h]
      exact hk.congr ⟨rfl, rfl, rfl, rfl, rfl⟩ rfl rfl
  | answer x y =>
    show KeptPoll (n + 1) (match m.survey with
      | some (q, a) => if M.succeeds (answer e x y) s then _ else m
      | none => m) (M.tx (answer e x y) s)
    rcases M.tx_cases (answer e x y) s with ⟨u, h⟩ | ⟨hf, h⟩
    · obtain ⟨⟨q, hq, -⟩, -, h3⟩ := answer_ok h
      have hp := hk.poll
      rw [hq] at hp
      rcases hm : m.survey with _ | ⟨q', a⟩
      · rw [hm] at hp; cases hp
      · rw [hm] at hp
        injection hp with hp
        subst hp
        dsimp only
        rw [if_pos (by unfold M.succeeds; rw [h]; rfl), h3]
        obtain ⟨k1, k2, k3⟩ := hk.survey _ a hm
        refine ⟨hq, fun q' a' hq' => ?_, hk.history⟩
        injection hq' with hq'
        injection hq' with _ hq'
        subst hq'
        have hlen := ayes_noes_length a
        rw [ayes_snoc, noes_snoc, List.length_append]
        dsimp only
        cases y
        · refine ⟨k1, ?_, by simpa using k3⟩
          simp only [Bool.false_eq_true, if_false, List.length_append, List.length_singleton]
          rw [k2, Nat.mod_eq_of_lt (by omega)]
        · refine ⟨?_, k2, by simpa using k3⟩
          simp only [if_true, List.length_append, List.length_singleton]
          rw [k1, Nat.mod_eq_of_lt (by omega)]
    · rw [h]
      refine hk.congr ⟨rfl, rfl, rfl, rfl, rfl⟩ ?_ ?_ <;>
      · split
        · rw [if_neg (by rw [hf]; simp)]
        · rfl
  | foreign f => exact hk.congr (f.samePoll s) rfl rfl
  | block f =>
    have hd := deadline_survey m s.gov e.now e.height
    have e1 := congrArg Prod.fst hd
    have e2 := congrArg Prod.snd hd
    dsimp only at e1 e2
    show KeptPoll (n + 1) (m.deadline s.gov e.now e.height) (block e f s)
    rcases hm : m.survey with _ | ⟨q, a⟩
    · rw [hm] at e1 e2
      dsimp only at e1 e2
      have hq : s.poll = none := by rw [hk.poll, hm]; rfl
      obtain ⟨h1, h2⟩ := runTasks_noPoll e f (dueTasks e.now s.sched) (hg.mid e.now) hq
      refine ⟨by rw [e1]; exact h1, fun q a hqa => (by rw [e1] at hqa; cases hqa), fun k => ?_⟩
      rw [e2, ← hk.history]
      show (runTasks e f (dueTasks e.now s.sched) s).pollHistory.get k = _
      rw [h2]
    · rw [hm] at e1 e2
      dsimp only at e1 e2
      have hq : s.poll = some q := by rw [hk.poll, hm]; rfl
      obtain ⟨k1, k2, k3⟩ := hk.survey q a hm
      by_cases ht : q.endTime ≤ e.now
      · rw [if_pos ht] at e1 e2
        obtain ⟨d, h1, h2, h3⟩ := block_poll_end e f hg hq ht
        have hlen := ayes_noes_length a
        rw [decision?_verdict (hg.poll.busy q hq).2.2 (by rw [k1, k2]; omega)] at h1
        injection h1 with h1
        subst h1
        refine ⟨by rw [e1]; exact h2, fun q a hqa => (by rw [e1] at hqa; cases hqa), fun k => ?_⟩
        rw [h3, e2, List.map_append, List.map_singleton, lastAt_snoc, KV.get_set, hk.history, k1, k2]
        rfl
      · rw [if_neg ht] at e1 e2
        exact hk.congr (block_poll_open e f hg hq (by omega)) (by rw [e1, hm]) e2

theorem minutes_keptVote (l : List (Env W × Op W)) {s : State W} (hg : Good s) {m : Minutes} (hk : KeptVote m s) :
    KeptVote (minutes s m l) (run s l) := by
  induction l generalizing s m with
  | nil => exact hk
  | cons x l ih => exact ih (step_good x.1 x.2 hg) (step_keptVote x.1 x.2 hg hk)

theorem minutes_keptPoll (l : List (Env W × Op W)) {s : State W} (hg : Good s) {n : Nat} (hn : n + l.length ≤ 2 ^ 62) {m : Minutes}
    (hk : KeptPoll n m s) : KeptPoll (n + l.length) (minutes s m l) (run s l) := by
  induction l generalizing s m n with
  | nil => exact hk
  | cons x l ih =>
    rw [List.length_cons] at hn ⊢
    have := ih (step_good x.1 x.2 hg) (n := n + 1) (by omega) (step_keptPoll x.1 x.2 hg (by omega) hk)
    rw [show n + (l.length + 1) = n + 1 + l.length by omega]
    exact this

theorem fresh_keptVote (gov : List Name) (sched : Schedule.State) (w : W) : KeptVote {} (fresh gov sched w) :=
  ⟨rfl, fun g hg => (by cases hg), fun _ => rfl⟩

theorem fresh_keptPoll (gov : List Name) (sched : Schedule.State) (w : W) : KeptPoll 0 {} (fresh gov sched w) :=
  ⟨rfl, fun q a hq => (by cases hq), fun _ => rfl⟩

/-! ### A store with one entry per key -/

theorem values_of_lastAt {V : Type} {m : KV Int V} {key : V → Int} {l : List V} (h : ∀ k, m.get k = lastAt key l k)
    (hs : (l.map key).Pairwise (· < ·)) : m.values = l := by
  have hsort : SortedKeys (l.map fun x => (key x, x)) := by
    unfold SortedKeys
    rw [List.pairwise_map] at hs ⊢
    exact hs
  have hm : m = ⟨l.map fun x => (key x, x), hsort⟩ := by
    refine KV.ext fun k => ?_
    rw [h]
    have hmem : ∀ v, lastAt key l k = some v ↔ v ∈ l ∧ key v = k := by
      intro v
      clear h hsort
      induction l using List.reverseRecOn with
      | nil => simp [lastAt]
      | append_singleton l x ih =>
        rw [List.map_append, List.pairwise_append] at hs
        obtain ⟨hs1, -, hs2⟩ := hs
        rw [lastAt_snoc, List.mem_append, List.mem_singleton]
        split
        · next hk =>
          constructor
          · intro hh; injection hh with hh; subst hh; exact ⟨.inr rfl, hk.symm⟩
          · rintro ⟨hv | hv, hh⟩
            · have := hs2 (key v) (List.mem_map_of_mem hv) (key x) (by simp)
              omega
            · rw [hv]
        · next hk =>
          rw [ih hs1]
          constructor
          · rintro ⟨h1, h2⟩; exact ⟨.inl h1, h2⟩
          · rintro ⟨h1 | h1, h2⟩
            · exact ⟨h1, h2⟩
            · rw [h1] at h2; exact absurd h2.symm hk
    ext v
    rw [hmem, ← KV.mem_entries]
    simp only [List.mem_map, Prod.mk.injEq]
    constructor
    · rintro ⟨h1, h2⟩; exact ⟨v, h1, h2, rfl⟩
    · rintro ⟨x, h1, h2, rfl⟩; exact ⟨h1, h2⟩
  rw [hm]
  show (l.map fun x => (key x, x)).map Prod.snd = l
  rw [List.map_map]
  simp [Function.comp_def]

/-! ### Heights and times -/

theorem note_ended (e : Env W) (op : Op W) (s : State W) (m : Minutes) :
    (note e s m op).ended.map Record.finished = m.ended.map Record.finished ∨
    (note e s m op).ended.map Record.finished = m.ended.map Record.finished ++ [e.height] := by
  have ha : ∀ g : Sitting, (m.after s.gov e.height g).ended.map Record.finished = m.ended.map Record.finished ∨
      (m.after s.gov e.height g).ended.map Record.finished = m.ended.map Record.finished ++ [e.height] := by
    intro g
    unfold Minutes.after
    split
    · right; simp [Sitting.record]
    · left; rfl
  cases op with
  | propose msg => unfold note; dsimp only; split; exacts [ha _, .inl rfl]
  | vote v y =>
    unfold note
    dsimp only
    split
    · split
      exacts [ha _, .inl rfl]
    · exact .inl rfl
  | startPoll msg => unfold note; dsimp only; split <;> exact .inl rfl
  | answer n y =>
    unfold note
    dsimp only
    split
    · split <;> exact .inl rfl
    · exact .inl rfl
  | foreign f => exact .inl rfl
  | block f =>
    have hd := congrArg Prod.snd (deadline_sitting m s.gov e.now e.height)
    dsimp only at hd
    show (m.deadline s.gov e.now e.height).ended.map Record.finished = _ ∨ (m.deadline s.gov e.now e.height).ended.map Record.finished = _
    rw [hd]
    cases m.sitting with
    | none => exact .inl rfl
    | some g =>
      dsimp only
      split
      · right; simp [Sitting.record]
      · exact .inl rfl

/-- At most one proposal ends per step, in the block of the step. -/
theorem minutes_heights (l : List (Env W × Op W)) : ∀ (s : State W) (m : Minutes), ∃ hs : List Int,
    hs.Sublist (l.map fun x => x.1.height) ∧ (minutes s m l).ended.map Record.finished = m.ended.map Record.finished ++ hs := by
  induction l with
  | nil => exact fun s m => ⟨[], List.Sublist.slnil, by simp [minutes]⟩
  | cons x l ih =>
    intro s m
    obtain ⟨hs, h1, h2⟩ := ih (x.2.run x.1 s) (note x.1 s m x.2)
    rcases note_ended x.1 x.2 s m with h | h
    · exact ⟨hs, h1.cons _, by show (minutes _ _ l).ended.map _ = _; rw [h2, h]⟩
    · exact ⟨x.1.height :: hs, h1.cons_cons _, by show (minutes _ _ l).ended.map _ = _; rw [h2, h]; simp⟩

/-- Polls end at different seconds. -/
structure Paced (now : Int) (m : Minutes) : Prop where
  past : ∀ x ∈ m.closed, x.1.endTime ≤ now
  next : ∀ x, m.survey = some x → ∀ y ∈ m.closed, y.1.endTime + 1000000000 ≤ x.1.endTime
  sorted : (m.closed.map fun x => x.1.endTime / 1000000000).Pairwise (· < ·)

theorem Paced.congr {a b : Int} {m m' : Minutes} (h : Paced a m) (hab : a ≤ b) (h1 : m'.survey = m.survey) (h2 : m'.closed = m.closed) :
    Paced b m' :=
  ⟨by rw [h2]; exact fun x hx => le_trans (h.past x hx) hab, by rw [h1, h2]; exact h.next, by rw [h2]; exact h.sorted⟩

theorem note_paced (e : Env W) (op : Op W) (s : State W) {m : Minutes} {a : Int} (h : Paced a m) (ha : a ≤ e.now)
    (hp : 1000000000 ≤ e.pollPeriod * e.hour) : Paced e.now (note e s m op) := by
  cases op with
  | propose msg =>
    unfold note
    dsimp only
    split
    · exact h.congr ha after_poll.1 after_poll.2
    · exact h.congr ha rfl rfl
  | vote v y =>
    unfold note
    dsimp only
    split
    · split
      · exact h.congr ha after_poll.1 after_poll.2
      · exact h.congr ha rfl rfl
    · exact h.congr ha rfl rfl
  | startPoll msg =>
    unfold note
    dsimp only
    split
    · refine ⟨fun x hx => le_trans (h.past x hx) ha, fun x hx y hy => ?_, h.sorted⟩
      injection hx with hx
      subst hx
      have := h.past y hy
      dsimp only
      omega
    · exact h.congr ha rfl rfl
  | answer n y =>
    unfold note
    dsimp only
    split
    · next q a hm =>
      split
      · refine ⟨fun x hx => le_trans (h.past x hx) ha, fun x hx y hy => ?_, h.sorted⟩
        injection hx with hx
        subst hx
        exact h.next _ hm y hy
      · exact h.congr ha rfl rfl
    · exact h.congr ha rfl rfl
  | foreign f => exact h.congr ha rfl rfl
  | block f =>
    have hd := deadline_survey m s.gov e.now e.height
    have e1 := congrArg Prod.fst hd
    have e2 := congrArg Prod.snd hd
    dsimp only at e1 e2
    show Paced e.now (m.deadline s.gov e.now e.height)
    rcases hm : m.survey with _ | x
    · rw [hm] at e1 e2
      exact h.congr ha (e1.trans hm.symm) e2
    · rw [hm] at e1 e2
      dsimp only at e1 e2
      by_cases ht : x.1.endTime ≤ e.now
      · rw [if_pos ht] at e1 e2
        refine ⟨fun y hy => ?_, fun y hy => (by rw [e1] at hy; cases hy), ?_⟩
        · rw [e2, List.mem_append, List.mem_singleton] at hy
          rcases hy with hy | rfl
          · exact le_trans (h.past y hy) ha
          · exact ht
        · rw [e2, List.map_append, List.pairwise_append]
          refine ⟨h.sorted, by simp, fun k hk j hj => ?_⟩
          obtain ⟨y, hy, rfl⟩ := List.mem_map.1 hk
          rw [List.map_singleton, List.mem_singleton] at hj
          subst hj
          have := h.next x hm y hy
          omega
      · rw [if_neg ht] at e1 e2
        exact h.congr ha (e1.trans hm.symm) e2

theorem minutes_paced (l : List (Env W × Op W)) : ∀ (s : State W) {m : Minutes} {a : Int}, Paced a m → (∀ x ∈ l, a ≤ x.1.now) →
    l.Pairwise (fun x y => x.1.now ≤ y.1.now) → (∀ x ∈ l, 1000000000 ≤ x.1.pollPeriod * x.1.hour) → ∃ b, Paced b (minutes s m l) := by
  induction l with
  | nil => exact fun s m a h _ _ _ => ⟨a, h⟩
  | cons x l ih =>
    intro s m a h ha hl hp
    rw [List.pairwise_cons] at hl
    exact ih (x.2.run x.1 s) (note_paced x.1 x.2 s h (ha x (by simp)) (hp x (by simp))) hl.1 hl.2 (fun y hy => hp y (by simp [hy]))

/-! ### C81 -/

/-- **C81**, the proposal under discussion, in every execution from a fresh start: the query shows what the minutes say – the
proposal, and those who voted yes and no, in their order –, and nothing if none is under discussion. -/
theorem C81_current {gov : List Name} {sched : Schedule.State} (w : W) (hs : Start sched) (l : List (Env W × Op W)) :
    let s := run (fresh gov sched w) l
    queryCurrent s = match (minutes (fresh gov sched w) {} l).sitting with
      | none => (none, [], [], [])
      | some g => (some g.proposal, s.gov, ayes g.votes, noes g.votes) := by
  intro s
  have hk : KeptVote (minutes (fresh gov sched w) {} l) s := minutes_keptVote l (fresh_good w hs) (fresh_keptVote gov sched w)
  unfold queryCurrent
  rw [hk.current]
  cases hm : (minutes (fresh gov sched w) {} l).sitting with
  | none => rfl
  | some g =>
    obtain ⟨-, h2, h3⟩ := hk.sitting g hm
    dsimp only [Option.map]
    rw [h2, h3]

/-- **C81**, the archive of proposals, in every execution: what it says about a block is the last proposal ended in it. -/
theorem C81_last_of_block {gov : List Name} {sched : Schedule.State} (w : W) (hs : Start sched) (l : List (Env W × Op W)) (h : Int) :
    (run (fresh gov sched w) l).history.get h = lastAt Record.finished (minutes (fresh gov sched w) {} l).ended h :=
  (minutes_keptVote l (fresh_good w hs) (fresh_keptVote gov sched w)).history h

/-- **C81**, completeness: if blocks are numbered in order and no two proposals end in the same block, the archive is the list of
all ended proposals in the order they ended, each with the government, the votes and the blocks of its beginning and end. -/
theorem C81_archive_partial {gov : List Name} {sched : Schedule.State} (w : W) (hs : Start sched) (l : List (Env W × Op W))
    (ho : l.Pairwise (fun x y => x.1.height ≤ y.1.height))
    (hd : ((minutes (fresh gov sched w) {} l).ended.map Record.finished).Nodup) :
    (run (fresh gov sched w) l).history.values = (minutes (fresh gov sched w) {} l).ended := by
  refine values_of_lastAt (fun k => C81_last_of_block w hs l k) ?_
  obtain ⟨hts, h1, h2⟩ := minutes_heights l (fresh gov sched w) {}
  rw [List.map_nil, List.nil_append] at h2
  rw [h2] at hd ⊢
  have hle : hts.Pairwise (· ≤ ·) := List.Pairwise.sublist h1 (List.pairwise_map.2 ho)
  exact hle.imp₂ (fun _ _ a b => lt_of_le_of_ne a b) hd

/-- **C81**, polls, in every execution with fewer than 2^62 steps in which time does not run backwards and polls last at least a
second: the archive is the list of all closed polls in the order they closed, with the counts of the answers and the verdict. -/
theorem C81_poll_archive {gov : List Name} {sched : Schedule.State} (w : W) (hs : Start sched) (l : List (Env W × Op W))
    (hlen : l.length ≤ 2 ^ 62) (ho : l.Pairwise (fun x y => x.1.now ≤ y.1.now))
    (hp : ∀ x ∈ l, 1000000000 ≤ x.1.pollPeriod * x.1.hour) :
    (run (fresh gov sched w) l).pollHistory.values = (minutes (fresh gov sched w) {} l).closed.map itemOf := by
  have hk := minutes_keptPoll l (fresh_good w hs) (n := 0) (by omega) (fresh_keptPoll gov sched w)
  refine values_of_lastAt hk.history ?_
  have h0 : ∀ a, Paced a ({} : Minutes) := fun a => ⟨by simp, fun x hx => (by cases hx), by simp⟩
  obtain ⟨b, hb⟩ : ∃ b, Paced b (minutes (fresh gov sched w) {} l) := by
    cases l with
    | nil => exact ⟨0, h0 0⟩
    | cons x l =>
      refine minutes_paced (x :: l) _ (h0 x.1.now) ?_ ho hp
      intro y hy
      rw [List.pairwise_cons] at ho
      rcases List.mem_cons.1 hy with rfl | hy
      · exact le_refl _
      · exact ho.1 y hy
  rw [List.map_map]
  exact hb.sorted

/-- **C81**, the poll under way: the query shows it with the numbers of yes and no answered so far. -/
theorem C81_poll {gov : List Name} {sched : Schedule.State} (w : W) (hs : Start sched) (l : List (Env W × Op W)) (hlen : l.length ≤ 2 ^ 62) :
    queryPoll (run (fresh gov sched w) l) =
      (minutes (fresh gov sched w) {} l).survey.map fun x => (x.1, (ayes x.2).length, (noes x.2).length) := by
  have hk := minutes_keptPoll l (fresh_good w hs) (n := 0) (by omega) (fresh_keptPoll gov sched w)
  unfold queryPoll
  rw [hk.poll]
  rcases hm : (minutes (fresh gov sched w) {} l).survey with _ | ⟨q, a⟩
  · rfl
  · obtain ⟨h1, h2, -⟩ := hk.survey q a hm
    rw [Option.map_some, Option.map_some, Option.map_some, h1, h2]

/-! Paging. -/

theorem historyLoop_eq {α : Type} (start stop : Int) (l : List α) :
    ∀ (c : Nat), historyLoop start stop c l = (l.take (stop - c).toNat).drop (start - c).toNat := by
  induction l with
  | nil => intro c; simp [historyLoop]
  | cons x l ih =>
    intro c
    unfold historyLoop
    have ih' := ih (c + 1)
    push_cast at ih'
    by_cases h1 : (c : Int) < stop
    · rw [if_pos h1]
      have e1 : (stop - c).toNat = (stop - (c + 1)).toNat + 1 := by omega
      rw [e1, List.take_succ_cons]
      by_cases h2 : (c : Int) < start
      · rw [if_pos h2, ih']
        have e2 : (start - c).toNat = (start - (c + 1)).toNat + 1 := by omega
        rw [e2, List.drop_succ_cons]
      · rw [if_neg h2, ih']
        have e2 : (start - c).toNat = 0 := by omega
        have e3 : (start - (c + 1)).toNat = 0 := by omega
        rw [e2, e3]; simp
    · rw [if_neg h1]
      have e1 : (stop - c).toNat = 0 := by omega
      rw [e1]; simp

theorem int32_id {x : Int} (h1 : -(2147483648) ≤ x) (h2 : x < 2147483648) : int32 x = x := by
  unfold int32
  rw [Int.bmod_eq_of_le] <;> norm_num at * <;> omega

theorem pages_concat {α : Type} (l : List α) (n : Nat) :
    ∀ k : Nat, (List.range k).flatMap (fun i => (l.take (n * (i + 1))).drop (n * i)) = l.take (n * k) := by
  intro k
  induction k with
  | zero => simp
  | succ k ih =>
    rw [List.range_succ, List.flatMap_append, ih]
    simp only [List.flatMap_cons, List.flatMap_nil, List.append_nil]
    have : l.take (n * k) = (l.take (n * (k + 1))).take (n * k) := by
      rw [List.take_take]
      congr 1
      have : n * k ≤ n * (k + 1) := Nat.mul_le_mul_left _ (Nat.le_succ _)
      omega
    rw [this, List.take_append_drop]

/-- **C81**, paging through the proposals: the pages 1 … `k` of `limit` records, one after the other, are the first `limit * k`
records of the archive – as long as the numbers stay below 2³¹. -/
theorem C81_pages_partial (limit k : Nat) (h : limit * k < 2147483648) (hk : k < 2147483648) (s : State W) :
    (List.range k).flatMap (fun i : Nat => getHistory limit ((i : Int) + 1) s) = s.history.values.take (limit * k) := by
  rw [← pages_concat]
  apply List.flatMap_congr
  intro i hi
  have hik : i + 1 ≤ k := Nat.succ_le_of_lt (by simpa using hi)
  have hb : limit * (i + 1) ≤ limit * k := Nat.mul_le_mul_left _ hik
  have hb' : limit * i ≤ limit * (i + 1) := Nat.mul_le_mul_left _ (Nat.le_succ _)
  have e0 : int32 ((i : Int) + 1 - 1) = i := by
    rw [add_sub_cancel_right]
    exact int32_id (by omega) (by omega)
  have e1 : int32 ((limit : Int) * i) = (limit * i : Nat) := by
    rw [← Nat.cast_mul]
    generalize limit * i = x at *
    exact int32_id (by omega) (by omega)
  have e2 : int32 ((limit : Int) * (i + 1)) = (limit * (i + 1) : Nat) := by
    have e : (limit : Int) * (i + 1) = ((limit * (i + 1) : Nat) : Int) := by push_cast; rfl
    rw [e]
    generalize limit * (i + 1) = x at *
    exact int32_id (by omega) (by omega)
  unfold getHistory
  rw [e0, e1, e2]
  have := historyLoop_eq ((limit * i : Nat) : Int) ((limit * (i + 1) : Nat) : Int) s.history.values 0
  simp only [Nat.cast_zero, sub_zero, Int.toNat_natCast] at this
  exact this

/-- The call of the export (genesis.go:50) reads the whole archive, if it has fewer than 2³¹ records. -/
theorem C81_export_reads_all (s : State W) (h : s.history.values.length ≤ 2147483647) : getHistory 2147483647 1 s = s.history.values := by
  have := C81_pages_partial 2147483647 1 (by norm_num) (by norm_num) s
  rw [List.take_of_length_le (by omega)] at this
  simpa using this

/-- **C81**, paging through the polls, for all numbers an `int32` holds: the pages 1 … `k` of `limit` polls are the first
`limit * k` polls of the archive. -/
theorem C81_poll_pages (limit k : Nat) (h0 : 0 < limit) (hl : limit < 2147483648) (hk : k < 2147483648) (s : State W) :
    (List.range k).flatMap (fun i : Nat => getPollHistory limit ((i : Int) + 1) s) = s.pollHistory.values.take (limit * k) := by
  rw [← pages_concat]
  apply List.flatMap_congr
  intro i hi
  have hik : i < k := by simpa using hi
  have hb : i * limit < 2147483648 * 2147483648 := Nat.mul_lt_mul'' (by omega) hl
  unfold getPollHistory
  rw [if_pos (by omega)]
  have e : (((i : Int) + 1 - 1) * (limit : Int)) % 2 ^ 64 = ((i * limit : Nat) : Int) := by
    rw [add_sub_cancel_right, ← Nat.cast_mul]
    exact Int.emod_eq_of_lt (by positivity) (by norm_num at hb ⊢; exact_mod_cast (by omega))
  rw [e, Int.toNat_natCast, Int.toNat_natCast, List.drop_take, mul_comm i limit]
  congr 1
  rw [Nat.mul_succ]; omega

/-- … and without a limit the whole archive is shown. -/
theorem C81_poll_pages_all (page : Int) (s : State W) : getPollHistory 0 page s = s.pollHistory.values := rfl

/-! ### Examples and limits -/

/-- Real hours. -/
def hourly (now height : Int) : Env Unit where
  now := now * 1000000000
  height := height
  hour := 3600000000000
  votingPeriod := 2
  pollPeriod := 1
  enact := fun _ w => (.ok (), w)
  qualified := fun _ _ => some true
  status := fun _ _ => some 5

def three : State Unit := fresh [text 1, text 2, text 3] Schedule.State.empty ()

/-- A proposal accepted by vote, a poll, another proposal and another poll, which end by time. -/
def session : List (Env Unit × Op Unit) :=
  [(hourly 1 1, .propose ⟨7, text 2, .other 0, 0⟩), (hourly 1 1, .startPoll ⟨5, text 1, some ⟨1, 2⟩, .none, 0, 0⟩),
   (hourly 6 2, .vote (text 1) false), (hourly 6 2, .vote (text 2) true), (hourly 6 2, .answer (text 9) true),
   (hourly 11 3, .vote (text 3) true), (hourly 11 3, .propose ⟨8, text 3, .governmentAdd 4, 0⟩),
   (hourly 16 4, .block (fun _ => ⟨id, []⟩)), (hourly 3601 5, .block (fun _ => ⟨id, []⟩)),
   (hourly 3601 5, .startPoll ⟨6, text 2, none, .none, 0, 0⟩), (hourly 3606 6, .answer (text 1) false),
   (hourly 7211 7, .block (fun _ => ⟨id, []⟩))]

/-- The hypotheses of C81 and what it says: the refused second vote of account 2 is not on record. -/
example : session.Pairwise (fun x y => x.1.height ≤ y.1.height) ∧ session.Pairwise (fun x y => x.1.now ≤ y.1.now) ∧
    (∀ x ∈ session, 1000000000 ≤ x.1.pollPeriod * x.1.hour) ∧ ((minutes three {} session).ended.map Record.finished) = [3, 7] ∧
    (minutes three {} session).ended.map (fun r => (r.agreed, r.disagreed, r.started)) = [([text 2, text 3], [text 1], 1), ([text 3], [], 3)] ∧
    (minutes three {} session).closed.map (fun x => (x.1.title, x.2)) = [(5, [(text 9, true)]), (6, [(text 1, false)])] := by
  refine ⟨?_, ?_, ?_, ?_, ?_, ?_⟩ <;> decide +kernel

example : getHistory 1 2 (run three session) = (minutes three {} session).ended.drop 1 ∧
    (getPollHistory 1 1 (run three session)).map (fun x => (x.poll.title, x.yes, x.no, x.decision)) = [(5, 1, 0, .positive)] := by decide +kernel

/-- Two proposals made and decided in one block. -/
def hasty : List (Env Unit × Op Unit) :=
  [(hourly 1 1, .propose ⟨7, text 2, .governmentAdd 4, 0⟩), (hourly 1 1, .vote (text 1) true), (hourly 1 1, .vote (text 3) true),
   (hourly 1 1, .propose ⟨8, text 2, .governmentRemove 4, 0⟩), (hourly 1 1, .vote (text 1) true), (hourly 1 1, .vote (text 3) true),
   (hourly 1 1, .vote (text 4) false)]

/-- **C81** fails: of two proposals ended in the same block only the second is in the archive; that account 4 was admitted to the
government is nowhere on record. -/
theorem C81_same_block_violation :
    (minutes three {} hasty).ended.map (fun r => (r.proposal.title, r.agreed.length)) = [(7, 3), (8, 3)] ∧
    (run three hasty).history.values.map (fun r => r.proposal.title) = [8] := by decide +kernel

/-- **C81**, paging, fails for large numbers: with pages of 2³⁰ records page 5 shows page 1 again. -/
theorem C81_pages_wrap : getHistory 1073741824 5 (run three session) = getHistory 1073741824 1 (run three session) ∧
    (getHistory 1073741824 5 (run three session)).length = 2 := by decide +kernel

end Verif.Voting
