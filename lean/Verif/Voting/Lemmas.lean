import Verif.Voting.Model
import Verif.Util.Lemmas

namespace Verif.Voting
open Verif.Util
open Verif.Schedule (Pending Inv)

variable {W : Type}

/-! ### Schedule requests -/

theorem deleteAll_spec {s : Schedule.State} {T : Int} {h : Nat} (hi : Inv s) (hr : Schedule.inRange T = true) :
    ∃ t, (Schedule.Req.deleteAll T h).exec? s = some t ∧ Inv t ∧
      ∀ x, Pending t x ↔ Pending s x ∧ ¬ (x.time = T ∧ x.handler = h) := by
  have : ∃ t, (Schedule.Req.deleteAll T h).exec? s = some t := by
    show ∃ t, Schedule.delete? s T _ = some t
    unfold Schedule.delete?
    rw [if_pos hr]
    split <;> exact ⟨_, rfl⟩
  obtain ⟨t, ht⟩ := this
  refine ⟨t, ht, Schedule.exec?_inv ht hi, fun x => ⟨fun hx => ?_, fun hx => ?_⟩⟩
  · obtain ⟨l', hl', hm⟩ := hx
    have hg := Schedule.delete?_get (p := fun t => t.handler == h) ht x.time
    rw [hl'] at hg
    by_cases hT : x.time = T
    · rw [if_pos hT] at hg
      rcases hs : s.store.get T with _ | l
      · rw [hs] at hg; simp at hg
      · rw [hs] at hg
        simp only at hg
        split at hg
        · simp at hg
        · injection hg with hg
          rw [hg, List.mem_filter] at hm
          refine ⟨⟨l, by rw [hT]; exact hs, hm.1⟩, fun hh => ?_⟩
          have := hm.2
          simp [hh.2] at this
    · rw [if_neg hT] at hg
      exact ⟨⟨l', hg.symm, hm⟩, fun hh => hT hh.1⟩
  · exact Schedule.exec?_pending ht hx.1 (fun hh => hx.2 ⟨hh.1.symm, hh.2.symm⟩)

theorem schedule_spec {s t : Schedule.State} {T : Int} {h : Nat} {d : List Nat}
    (ht : (Schedule.Req.schedule T h d).exec? s = some t) (hi : Inv s) :
    Inv t ∧ Schedule.inRange T = true ∧ ∀ x, Pending t x ↔ Pending s x ∨ x = ⟨T, h, d, s.next⟩ := by
  have hinv := Schedule.exec?_inv ht hi
  obtain ⟨hr, -, hst⟩ := Schedule.schedule?_spec ht
  refine ⟨hinv, hr, fun x => ⟨fun hx => ?_, fun hx => ?_⟩⟩
  · obtain ⟨l, hl, hm⟩ := hx
    rw [hst, KV.get_set] at hl
    split at hl
    · next hT =>
      injection hl with hl
      subst hl
      rcases List.mem_append.1 hm with hm | hm
      · left
        rcases hs : s.store.get T with _ | l
        · rw [hs] at hm; simp at hm
        · rw [hs] at hm; exact ⟨l, by rw [hT]; exact hs, hm⟩
      · right; simpa using hm
    · exact Or.inl ⟨l, hl, hm⟩
  · rcases hx with hx | rfl
    · exact Schedule.exec?_pending ht hx trivial
    · exact ⟨_, by rw [hst, KV.get_set_self], by simp⟩

theorem exec?_other {s t : Schedule.State} {r : Schedule.Req} (ht : r.exec? s = some t) {x : Schedule.Task}
    (hx : hookOf r ≠ x.handler) : Pending t x ↔ Pending s x := by
  constructor
  · intro hp
    obtain ⟨l, hl, hm⟩ := hp
    cases r with
    | schedule T h d =>
      obtain ⟨-, -, hst⟩ := Schedule.schedule?_spec ht
      rw [hst, KV.get_set] at hl
      split at hl
      · next hT =>
        injection hl with hl
        subst hl
        rcases List.mem_append.1 hm with hm | hm
        · rcases hs : s.store.get T with _ | l
          · rw [hs] at hm; simp at hm
          · rw [hs] at hm; exact ⟨l, by rw [hT]; exact hs, hm⟩
        · simp only [List.mem_singleton] at hm
          subst hm; exact absurd rfl hx
      · exact ⟨l, hl, hm⟩
    | delete T h d =>
      obtain ⟨l0, h1, h2⟩ := Schedule.delete?_sub ht hl
      exact ⟨l0, h1, h2.subset hm⟩
    | deleteAll T h =>
      obtain ⟨l0, h1, h2⟩ := Schedule.delete?_sub ht hl
      exact ⟨l0, h1, h2.subset hm⟩
  · intro hp
    refine Schedule.exec?_pending ht hp ?_
    cases r with
    | schedule T h d => trivial
    | delete T h d => exact fun hh => hx hh.2.1
    | deleteAll T h => exact fun hh => hx hh.2

theorem execReqs_other {s : Schedule.State} (rs : List Schedule.Req) {x : Schedule.Task}
    (hx : ∀ r ∈ rs, hookOf r ≠ x.handler) : Pending (Schedule.execReqs s rs) x ↔ Pending s x := by
  induction rs generalizing s with
  | nil => exact Iff.rfl
  | cons r rs ih =>
    unfold Schedule.execReqs
    rcases h : r.exec? s with _ | s'
    · exact Iff.rfl
    · exact (ih (fun r' hr' => hx r' (by simp [hr']))).trans (exec?_other h (hx r (by simp)))

theorem mem_dueTasks {now : Int} {s : Schedule.State} (hi : Inv s) {t : Schedule.Task} :
    t ∈ dueTasks now s ↔ t.time ≤ now ∧ Pending s t := by
  have := Schedule.mem_log (h := fun _ _ _ => none) (bt := now) hi (t := t)
  rwa [Schedule.performSchedule_log] at this

theorem Pending.inRange {s : Schedule.State} (hi : Inv s) {x : Schedule.Task} (h : Pending s x) :
    Schedule.inRange x.time = true := by
  obtain ⟨l, hl, -⟩ := h
  exact (hi.bucket _ _ hl).2.1

/-! ### Parts of the state -/

structure SameVote (s t : State W) : Prop where
  gov : t.gov = s.gov
  current : t.current = s.current
  agreed : t.agreed = s.agreed
  disagreed : t.disagreed = s.disagreed
  startBlock : t.startBlock = s.startBlock
  history : t.history = s.history

structure SamePoll (s t : State W) : Prop where
  poll : t.poll = s.poll
  yes : t.yes = s.yes
  no : t.no = s.no
  answers : t.answers = s.answers
  history : t.pollHistory = s.pollHistory

theorem SameVote.trans {a b c : State W} (h : SameVote a b) (g : SameVote b c) : SameVote a c :=
  ⟨g.gov.trans h.gov, g.current.trans h.current, g.agreed.trans h.agreed, g.disagreed.trans h.disagreed,
    g.startBlock.trans h.startBlock, g.history.trans h.history⟩

theorem SamePoll.trans {a b c : State W} (h : SamePoll a b) (g : SamePoll b c) : SamePoll a c :=
  ⟨g.poll.trans h.poll, g.yes.trans h.yes, g.no.trans h.no, g.answers.trans h.answers, g.history.trans h.history⟩

theorem Foreign.sameVote (f : Foreign W) (s : State W) : SameVote s (f.run s) := ⟨rfl, rfl, rfl, rfl, rfl, rfl⟩
theorem Foreign.samePoll (f : Foreign W) (s : State W) : SamePoll s (f.run s) := ⟨rfl, rfl, rfl, rfl, rfl⟩

theorem Foreign.pending (f : Foreign W) (s : State W) {x : Schedule.Task}
    (hx : x.handler = voteHook ∨ x.handler = pollHook) : Pending (f.run s).sched x ↔ Pending s.sched x := by
  refine execReqs_other _ fun r hr => ?_
  have h := (List.mem_filter.1 hr).2
  simp only [decide_eq_true_eq] at h
  rcases hx with hx | hx <;> rw [hx]
  · exact h.1
  · exact h.2

theorem Foreign.inv (f : Foreign W) {s : State W} (h : Inv s.sched) : Inv (f.run s).sched := Schedule.execReqs_inv _ h

/-! ### The invariant -/

/-- Number of stored answers of a kind. -/
def count (m : KV Nat Bool) (b : Bool) : Nat := (m.values.filter (· == b)).length

/-- Voting half: nothing of a finished proposal is left, an open one is not complete and has its task. -/
structure GoodVote (s : State W) : Prop where
  idle : s.current = none → s.agreed = [] ∧ s.disagreed = [] ∧ s.startBlock = none ∧
    ∀ x, Pending s.sched x → x.handler ≠ voteHook
  busy : ∀ p, s.current = some p → (∃ b, s.startBlock = some b) ∧
    (∃ id, Pending s.sched ⟨p.endTime, voteHook, [], id⟩) ∧
    (∀ x, Pending s.sched x → x.handler = voteHook → x.time = p.endTime) ∧
    s.gov.length ≠ s.agreed.length + s.disagreed.length ∧ p.author ∈ s.agreed

/-- Poll half. -/
structure GoodPoll (s : State W) : Prop where
  idle : s.poll = none → s.yes = 0 ∧ s.no = 0 ∧ s.answers = KV.empty
  busy : ∀ q, s.poll = some q → (∃ id, Pending s.sched ⟨q.endTime, pollHook, [], id⟩) ∧
    (∀ x, Pending s.sched x → x.handler = pollHook → x.time = q.endTime) ∧ quorumOk q.quorum = true
  yes : s.yes = count s.answers true % 2 ^ 64
  no : s.no = count s.answers false % 2 ^ 64

structure Good (s : State W) : Prop where
  inv : Inv s.sched
  vote : GoodVote s
  poll : GoodPoll s
  quiet : s.poll = none → ∀ x, Pending s.sched x → x.handler ≠ pollHook

/-- In the middle of a block tasks of an ended poll may still be stored. -/
structure Mid (now : Int) (s : State W) : Prop where
  inv : Inv s.sched
  vote : GoodVote s
  poll : GoodPoll s
  quiet : s.poll = none → ∀ x, Pending s.sched x → x.handler = pollHook → x.time ≤ now

theorem Good.mid {s : State W} (h : Good s) (now : Int) : Mid now s :=
  ⟨h.inv, h.vote, h.poll, fun hp x hx hh => absurd hh (h.quiet hp x hx)⟩

theorem GoodVote.congr {s t : State W} (h : GoodVote s) (hs : SameVote s t)
    (hp : ∀ x : Schedule.Task, x.handler = voteHook → (Pending t.sched x ↔ Pending s.sched x)) : GoodVote t := by
  constructor
  · intro hc
    rw [hs.current] at hc
    obtain ⟨h1, h2, h3, h4⟩ := h.idle hc
    exact ⟨hs.agreed.trans h1, hs.disagreed.trans h2, hs.startBlock.trans h3, fun x hx hh => h4 x ((hp x hh).1 hx) hh⟩
  · intro p hc
    rw [hs.current] at hc
    obtain ⟨h1, ⟨id, h2⟩, h3, h4, h5⟩ := h.busy p hc
    refine ⟨by rw [hs.startBlock]; exact h1, ⟨id, (hp _ rfl).2 h2⟩, fun x hx hh => h3 x ((hp x hh).1 hx) hh, ?_, ?_⟩
    · rw [hs.gov, hs.agreed, hs.disagreed]; exact h4
    · rw [hs.agreed]; exact h5

theorem GoodPoll.congr {s t : State W} (h : GoodPoll s) (hs : SamePoll s t)
    (hp : ∀ x : Schedule.Task, x.handler = pollHook → (Pending t.sched x ↔ Pending s.sched x)) : GoodPoll t := by
  constructor
  · intro hc
    rw [hs.poll] at hc
    obtain ⟨h1, h2, h3⟩ := h.idle hc
    exact ⟨hs.yes.trans h1, hs.no.trans h2, hs.answers.trans h3⟩
  · intro p hc
    rw [hs.poll] at hc
    obtain ⟨⟨id, h2⟩, h3, h4⟩ := h.busy p hc
    exact ⟨⟨id, (hp _ rfl).2 h2⟩, fun x hx hh => h3 x ((hp x hh).1 hx) hh, h4⟩
  · rw [hs.yes, hs.answers]; exact h.yes
  · rw [hs.no, hs.answers]; exact h.no

/-! ### The end of a proposal -/

/-- The state right after the proposal is filed away. -/
structure Filed (e : Env W) (p : Proposal) (b : Int) (s t : State W) : Prop where
  gov : t.gov = s.gov
  world : t.world = s.world
  current : t.current = none
  agreed : t.agreed = []
  disagreed : t.disagreed = []
  startBlock : t.startBlock = none
  history : t.history = s.history.set e.height ⟨p, s.gov, s.agreed, s.disagreed, b, e.height⟩
  poll : SamePoll s t
  inv : Inv t.sched
  pending : ∀ x, Pending t.sched x ↔ Pending s.sched x ∧ ¬ (x.time = p.endTime ∧ x.handler = voteHook)

theorem endProposal_eq (e : Env W) {p : Proposal} {b : Int} (ag : Bool) {s : State W} (hi : Inv s.sched)
    (hr : Schedule.inRange p.endTime = true) (hc : s.current = some p) (hb : s.startBlock = some b) :
    ∃ t, Filed e p b s t ∧ endProposal e p ag s = (if ag then enact e p.kind else pure ()) t := by
  obtain ⟨sc, h1, h2, h3⟩ := deleteAll_spec (h := voteHook) hi hr
  refine ⟨{ s with
    sched := sc, history := s.history.set e.height ⟨p, s.gov, s.agreed, s.disagreed, b, e.height⟩,
    current := none, agreed := [], disagreed := [], startBlock := none }, ?_, ?_⟩
  · exact ⟨rfl, rfl, rfl, rfl, rfl, rfl, rfl, ⟨rfl, rfl, rfl, rfl, rfl⟩, h2, h3⟩
  · unfold endProposal
    have : (onSched (.deleteAll p.endTime voteHook) : M (State W) Unit) s = (.ok (), { s with sched := sc }) := by
      unfold onSched; rw [h1]
    rw [M.bind_ok this]
    have h4 : (saveToHistory e : M (State W) Unit) { s with sched := sc } = (.ok (), { s with
        sched := sc, history := s.history.set e.height ⟨p, s.gov, s.agreed, s.disagreed, b, e.height⟩ }) := by
      unfold saveToHistory
      rw [M.bind_ok (M.get_apply _)]
      dsimp only
      rw [hc, hb]
      rfl
    rw [M.bind_ok h4]
    rfl

/-- What enacting leaves alone. -/
structure Enacts (s t : State W) : Prop where
  current : t.current = s.current
  agreed : t.agreed = s.agreed
  disagreed : t.disagreed = s.disagreed
  startBlock : t.startBlock = s.startBlock
  history : t.history = s.history
  poll : SamePoll s t
  sched : t.sched = s.sched

theorem enact_enacts (e : Env W) (k : Kind) (s : State W) : Enacts s (enact e k s).2 := by
  cases k with
  | governmentAdd a => exact ⟨rfl, rfl, rfl, rfl, rfl, ⟨rfl, rfl, rfl, rfl, rfl⟩, rfl⟩
  | governmentRemove a => exact ⟨rfl, rfl, rfl, rfl, rfl, ⟨rfl, rfl, rfl, rfl, rfl⟩, rfl⟩
  | other k =>
    show Enacts s (onWorld (e.enact k) s).2
    unfold onWorld
    split <;> exact ⟨rfl, rfl, rfl, rfl, rfl, ⟨rfl, rfl, rfl, rfl, rfl⟩, rfl⟩

/-- After the end nothing is open, whether the proposal is enacted or not and even if enacting panics. -/
structure Closed (e : Env W) (p : Proposal) (b : Int) (s t : State W) : Prop where
  current : t.current = none
  agreed : t.agreed = []
  disagreed : t.disagreed = []
  startBlock : t.startBlock = none
  history : t.history = s.history.set e.height ⟨p, s.gov, s.agreed, s.disagreed, b, e.height⟩
  poll : SamePoll s t
  inv : Inv t.sched
  pending : ∀ x, Pending t.sched x ↔ Pending s.sched x ∧ ¬ (x.time = p.endTime ∧ x.handler = voteHook)

theorem Filed.closed {e : Env W} {p : Proposal} {b : Int} {s t : State W} (h : Filed e p b s t) : Closed e p b s t :=
  ⟨h.current, h.agreed, h.disagreed, h.startBlock, h.history, h.poll, h.inv, h.pending⟩

theorem Closed.enact {e : Env W} {p : Proposal} {b : Int} {s t u : State W} (h : Closed e p b s t) (g : Enacts t u) :
    Closed e p b s u :=
  ⟨g.current.trans h.current, g.agreed.trans h.agreed, g.disagreed.trans h.disagreed, g.startBlock.trans h.startBlock,
    g.history.trans h.history, h.poll.trans g.poll, by rw [g.sched]; exact h.inv, by rw [g.sched]; exact h.pending⟩

theorem endProposal_closed (e : Env W) {p : Proposal} {b : Int} (ag : Bool) {s : State W} (hi : Inv s.sched)
    (hr : Schedule.inRange p.endTime = true) (hc : s.current = some p) (hb : s.startBlock = some b) :
    Closed e p b s (endProposal e p ag s).2 := by
  obtain ⟨t, h1, h2⟩ := endProposal_eq e ag hi hr hc hb
  rw [h2]
  cases ag with
  | false => exact h1.closed
  | true => exact h1.closed.enact (enact_enacts e _ t)

theorem Closed.goodVote {e : Env W} {p : Proposal} {b : Int} {s t : State W} (h : Closed e p b s t)
    (hv : ∀ x, Pending s.sched x → x.handler = voteHook → x.time = p.endTime) : GoodVote t := by
  constructor
  · intro _
    refine ⟨h.agreed, h.disagreed, h.startBlock, fun x hx hh => ?_⟩
    obtain ⟨h1, h2⟩ := (h.pending x).1 hx
    exact h2 ⟨hv x h1 hh, hh⟩
  · intro q hq
    rw [h.current] at hq; cases hq

theorem Closed.pollPending {e : Env W} {p : Proposal} {b : Int} {s t : State W} (h : Closed e p b s t)
    {x : Schedule.Task} (hx : x.handler = pollHook) : Pending t.sched x ↔ Pending s.sched x := by
  rw [h.pending]
  constructor
  · exact fun hh => hh.1
  · refine fun hh => ⟨hh, fun h2 => ?_⟩
    rw [hx] at h2; exact absurd h2.2 (by decide)

theorem Closed.good {e : Env W} {p : Proposal} {b : Int} {s t : State W} (h : Closed e p b s t)
    (hv : ∀ x, Pending s.sched x → x.handler = voteHook → x.time = p.endTime) (hp : GoodPoll s)
    (hq : s.poll = none → ∀ x, Pending s.sched x → x.handler ≠ pollHook) : Good t := by
  refine ⟨h.inv, h.goodVote hv, hp.congr h.poll (fun x hx => h.pollPending hx), fun hn x hx hh => ?_⟩
  rw [h.poll.poll] at hn
  exact hq hn x ((h.pollPending hh).1 hx) hh

/-- The deadline of an open proposal: it ends without effect. -/
theorem processSchedule_ends (e : Env W) {s : State W} (hi : Inv s.sched) (hv : GoodVote s) {p : Proposal}
    (hc : s.current = some p) : ∃ b t, s.startBlock = some b ∧ Filed e p b s t ∧ processSchedule e s = (.ok (), t) := by
  obtain ⟨⟨b, hb⟩, ⟨id, hid⟩, -, hn, -⟩ := hv.busy p hc
  obtain ⟨t, h1, h2⟩ := endProposal_eq e (validate s.gov s.agreed s.disagreed).2 hi (Pending.inRange hi hid) hc hb
  refine ⟨b, t, hb, h1, ?_⟩
  unfold processSchedule
  rw [M.bind_ok (M.get_apply s), hc]
  show endProposal e p _ s = _
  rw [h2]
  have : (validate s.gov s.agreed s.disagreed).2 = false := by
    unfold validate; rw [if_neg hn]
  rw [this]; rfl

theorem processSchedule_none (e : Env W) {s : State W} (hc : s.current = none) : processSchedule e s = (.ok (), s) := by
  unfold processSchedule
  rw [M.bind_ok (M.get_apply s), hc]; rfl

/-! ### The end of a poll -/

theorem quorum_denom {q : Frac} (h : quorumOk (some q) = true) : q.denom ≠ 0 := by
  intro hd
  obtain ⟨n, d⟩ := q
  simp only at hd; subst hd
  unfold quorumOk at h
  simp only [Bool.and_eq_true, beq_iff_eq] at h
  have : (⟨n, 0⟩ : Frac).gt? (Frac.ofInt 1) = none := by
    simp [Frac.gt?, Frac.sub?, Frac.add?, lcm?, quo?, Frac.ofInt, Frac.neg]
  rw [this] at h
  simp at h

theorem decision?_some {q : Option Frac} (h : quorumOk q = true) (y n : Nat) : ∃ d, decision? q y n = some d := by
  cases q with
  | none => exact ⟨_, rfl⟩
  | some q =>
    have hd := quorum_denom h
    unfold decision?
    dsimp only
    by_cases hy : y = 0
    · rw [if_pos hy]; exact ⟨_, rfl⟩
    · rw [if_neg hy]
      obtain ⟨z, h1, h2, -⟩ := Frac.mul?_spec q (Frac.ofInt (wrap64 ((y + n) % 2 ^ 64 : Nat))) hd (by simp [Frac.ofInt])
      rw [h1]
      have := Frac.gte?_spec (Frac.ofInt (wrap64 y)) z (by simp [Frac.ofInt]) h2.ne'
      simp [this]

/-- The state after a poll. -/
structure Ended (q : Poll) (d : Decision) (s t : State W) : Prop where
  poll : t.poll = none
  yes : t.yes = 0
  no : t.no = 0
  answers : t.answers = KV.empty
  history : t.pollHistory = s.pollHistory.set (q.endTime / 1000000000) ⟨q, s.yes, s.no, d⟩
  vote : SameVote s t
  sched : t.sched = s.sched
  world : t.world = s.world

theorem endPoll_ends {s : State W} {q : Poll} (hq : s.poll = some q) (hk : quorumOk q.quorum = true) :
    ∃ d t, decision? q.quorum s.yes s.no = some d ∧ Ended q d s t ∧ endPoll s = (.ok (), t) := by
  obtain ⟨d, hd⟩ := decision?_some hk s.yes s.no
  refine ⟨d, { s with
    pollHistory := s.pollHistory.set (q.endTime / 1000000000) ⟨q, s.yes, s.no, d⟩
    poll := none, yes := 0, no := 0, answers := KV.empty }, hd, ⟨rfl, rfl, rfl, rfl, rfl, ⟨rfl, rfl, rfl, rfl, rfl, rfl⟩, rfl, rfl⟩, ?_⟩
  unfold endPoll
  rw [M.bind_ok (M.get_apply s), hq]
  show (M.orPanic (decision? q.quorum s.yes s.no) >>= _) s = _
  rw [hd]; rfl

theorem endPoll_none {s : State W} (hq : s.poll = none) : endPoll s = (.panic, s) := by
  unfold endPoll
  rw [M.bind_ok (M.get_apply s), hq]; rfl

theorem count_empty (b : Bool) : count KV.empty b = 0 := rfl

theorem Ended.goodPoll {q : Poll} {d : Decision} {s t : State W} (h : Ended q d s t) : GoodPoll t := by
  refine ⟨fun _ => ⟨h.yes, h.no, h.answers⟩, fun q hq => ?_, ?_, ?_⟩
  · rw [h.poll] at hq; cases hq
  · rw [h.yes, h.answers]; rfl
  · rw [h.no, h.answers]; rfl

/-! ### Blocks -/

/-- One task of a block keeps the invariant; `s0` is the state at the beginning of the block. -/
theorem runTask_mid (e : Env W) (f : Schedule.Task → Foreign W) {t : Schedule.Task} {s : State W} (h : Mid e.now s)
    (ht : t.handler = pollHook → ∀ q, s.poll = some q → q.endTime ≤ e.now) : Mid e.now (runTask e f t s) := by
  unfold runTask
  split
  · rcases hc : s.current with _ | p
    · rw [processSchedule_none e hc]; exact h
    · obtain ⟨b, u, hb, h1, h2⟩ := processSchedule_ends e h.inv h.vote hc
      rw [h2]
      obtain ⟨-, -, h3, -⟩ := h.vote.busy p hc
      have hcl := h1.closed
      refine ⟨hcl.inv, hcl.goodVote h3, h.poll.congr hcl.poll (fun x hx => hcl.pollPending hx), fun hn x hx hh => ?_⟩
      have hn : u.poll = none := hn
      rw [hcl.poll.poll] at hn
      exact h.quiet hn x ((hcl.pollPending hh).1 hx) hh
  · split
    · next hh =>
      rcases hq : s.poll with _ | q
      · rw [endPoll_none hq]; exact h
      · obtain ⟨-, h2, h3⟩ := h.poll.busy q hq
        obtain ⟨d, u, hd, h4, h5⟩ := endPoll_ends hq h3
        rw [h5]
        refine ⟨by rw [h4.sched]; exact h.inv, h.vote.congr h4.vote (fun x _ => by rw [h4.sched]), h4.goodPoll, fun _ x hx hx' => ?_⟩
        rw [h4.sched] at hx
        rw [h2 x hx hx']
        exact ht hh q hq
    · refine ⟨Foreign.inv _ h.inv, h.vote.congr ((f t).sameVote s) (fun x hx => (f t).pending s (.inl hx)),
        h.poll.congr ((f t).samePoll s) (fun x hx => (f t).pending s (.inr hx)), fun hn x hx hh => ?_⟩
      exact h.quiet hn x (((f t).pending s (.inr hh)).1 hx) hh

theorem runTask_poll (e : Env W) (f : Schedule.Task → Foreign W) {t : Schedule.Task} {s : State W} (h : Mid e.now s)
    {q : Poll} (hq : (runTask e f t s).poll = some q) : s.poll = some q ∧ t.handler ≠ pollHook := by
  unfold runTask at hq
  split at hq
  · next hv =>
    refine ⟨?_, by rw [hv]; decide⟩
    rcases hc : s.current with _ | p
    · rw [processSchedule_none e hc] at hq; exact hq
    · obtain ⟨b, u, hb, h1, h2⟩ := processSchedule_ends e h.inv h.vote hc
      rw [h2] at hq
      rw [← h1.poll.poll]; exact hq
  · split at hq
    · exfalso
      rcases hq' : s.poll with _ | q'
      · rw [endPoll_none hq'] at hq; simp only at hq; rw [hq'] at hq; cases hq
      · obtain ⟨d, u, hd, h4, h5⟩ := endPoll_ends hq' (h.poll.busy q' hq').2.2
        rw [h5] at hq
        simp only at hq
        rw [h4.poll] at hq; cases hq
    · next hp => exact ⟨hq, hp⟩

theorem runTasks_mid (e : Env W) (f : Schedule.Task → Foreign W) (l : List Schedule.Task) {s : State W} (h : Mid e.now s)
    (ht : ∀ t ∈ l, t.handler = pollHook → ∀ q, s.poll = some q → q.endTime ≤ e.now) :
    Mid e.now (runTasks e f l s) ∧
      ∀ q, (runTasks e f l s).poll = some q → s.poll = some q ∧ ∀ t ∈ l, t.handler ≠ pollHook := by
  induction l generalizing s with
  | nil => exact ⟨h, fun q hq => ⟨hq, by simp⟩⟩
  | cons t ts ih =>
    have h1 := runTask_mid e f h (ht t (by simp))
    obtain ⟨h2, h3⟩ := ih h1 (fun t' ht' hh q hq => ht t' (by simp [ht']) hh q (runTask_poll e f h hq).1)
    refine ⟨h2, fun q hq => ?_⟩
    obtain ⟨h4, h5⟩ := h3 q hq
    obtain ⟨h6, h7⟩ := runTask_poll e f h h4
    refine ⟨h6, fun t' ht' => ?_⟩
    rcases List.mem_cons.1 ht' with rfl | ht'
    · exact h7
    · exact h5 t' ht'

theorem runTask_idle (e : Env W) (f : Schedule.Task → Foreign W) {t : Schedule.Task} {s : State W}
    (hc : s.current = none ∨ t.handler ≠ voteHook) : SameVote s (runTask e f t s) := by
  unfold runTask
  split
  · next hv =>
    rcases hc with hc | hc
    · rw [processSchedule_none e hc]; exact ⟨rfl, rfl, rfl, rfl, rfl, rfl⟩
    · exact absurd hv hc
  · split
    · unfold endPoll
      rw [M.bind_ok (M.get_apply s)]
      rcases hq : s.poll with _ | q
      · exact ⟨rfl, rfl, rfl, rfl, rfl, rfl⟩
      · show SameVote s ((M.orPanic (decision? q.quorum s.yes s.no) >>= _) s).2
        rcases decision? q.quorum s.yes s.no with _ | d <;> exact ⟨rfl, rfl, rfl, rfl, rfl, rfl⟩
    · exact (f t).sameVote s

theorem runTasks_idle (e : Env W) (f : Schedule.Task → Foreign W) (l : List Schedule.Task) {s : State W}
    (hc : s.current = none ∨ ∀ t ∈ l, t.handler ≠ voteHook) : SameVote s (runTasks e f l s) := by
  induction l generalizing s with
  | nil => exact ⟨rfl, rfl, rfl, rfl, rfl, rfl⟩
  | cons t ts ih =>
    have h1 : SameVote s (runTask e f t s) := runTask_idle e f (hc.imp id (fun h => h t (by simp)))
    refine h1.trans (ih ?_)
    rcases hc with hc | hc
    · left; rw [h1.current]; exact hc
    · right; exact fun t' ht' => hc t' (by simp [ht'])

theorem runTasks_append (e : Env W) (f : Schedule.Task → Foreign W) (l m : List Schedule.Task) (s : State W) :
    runTasks e f (l ++ m) s = runTasks e f m (runTasks e f l s) := by
  induction l generalizing s with
  | nil => rfl
  | cons t ts ih => exact ih _

/-- The block's tasks with a vote task among them. -/
theorem runTasks_deadline (e : Env W) (f : Schedule.Task → Foreign W) (l : List Schedule.Task) {s : State W} (h : Mid e.now s)
    (ht : ∀ t ∈ l, t.handler = pollHook → ∀ q, s.poll = some q → q.endTime ≤ e.now) {p : Proposal}
    (hc : s.current = some p) (hl : ∃ t ∈ l, t.handler = voteHook) :
    ∃ b, s.startBlock = some b ∧ (runTasks e f l s).current = none ∧ (runTasks e f l s).gov = s.gov ∧
      (runTasks e f l s).history = s.history.set e.height ⟨p, s.gov, s.agreed, s.disagreed, b, e.height⟩ := by
  induction l generalizing s with
  | nil => simp at hl
  | cons t ts ih =>
    by_cases hv : t.handler = voteHook
    · obtain ⟨b, u, hb, h1, h2⟩ := processSchedule_ends e h.inv h.vote hc
      have hu : runTask e f t s = u := by unfold runTask; rw [if_pos hv, h2]
      have h3 := runTasks_idle e f ts (s := u) (.inl h1.current)
      refine ⟨b, hb, ?_⟩
      show (runTasks e f ts (runTask e f t s)).current = none ∧ (runTasks e f ts (runTask e f t s)).gov = _ ∧
        (runTasks e f ts (runTask e f t s)).history = _
      rw [hu]
      exact ⟨h3.current.trans h1.current, h3.gov.trans h1.gov, h3.history.trans h1.history⟩
    · have h1 : SameVote s (runTask e f t s) := runTask_idle e f (.inr hv)
      obtain ⟨b, hb, h2, h3, h4⟩ := ih (runTask_mid e f h (ht t (by simp)))
        (fun t' ht' hh q hq => ht t' (by simp [ht']) hh q (runTask_poll e f h hq).1) (h1.current.trans hc) (by
          obtain ⟨x, hx, hx'⟩ := hl
          rcases List.mem_cons.1 hx with rfl | hx
          · exact absurd hx' hv
          · exact ⟨x, hx, hx'⟩)
      refine ⟨b, h1.startBlock ▸ hb, h2, h3.trans h1.gov, ?_⟩
      rw [← h1.gov, ← h1.agreed, ← h1.disagreed, ← h1.history]; exact h4

/-- What the rest of the chain does in a block. -/
def foreignWorld (f : Schedule.Task → Foreign W) (l : List Schedule.Task) (w : W) : W :=
  l.foldl (fun w t => if t.handler = voteHook ∨ t.handler = pollHook then w else (f t).world w) w

theorem runTask_world (e : Env W) (f : Schedule.Task → Foreign W) {t : Schedule.Task} {s : State W} (h : Mid e.now s) :
    (runTask e f t s).world = foreignWorld f [t] s.world := by
  unfold runTask foreignWorld
  simp only [List.foldl_cons, List.foldl_nil]
  by_cases hv : t.handler = voteHook
  · rw [if_pos hv, if_pos (.inl hv)]
    rcases hc : s.current with _ | p
    · rw [processSchedule_none e hc]
    · obtain ⟨b, u, hb, h1, h2⟩ := processSchedule_ends e h.inv h.vote hc
      rw [h2]; exact h1.world
  · rw [if_neg hv]
    by_cases hp : t.handler = pollHook
    · rw [if_pos hp, if_pos (.inr hp)]
      rcases hq : s.poll with _ | q
      · rw [endPoll_none hq]
      · obtain ⟨d, u, hd, h4, h5⟩ := endPoll_ends hq (h.poll.busy q hq).2.2
        rw [h5]; exact h4.world
    · rw [if_neg hp, if_neg (by tauto)]; rfl

theorem runTasks_world (e : Env W) (f : Schedule.Task → Foreign W) (l : List Schedule.Task) {s : State W} (h : Mid e.now s)
    (ht : ∀ t ∈ l, t.handler = pollHook → ∀ q, s.poll = some q → q.endTime ≤ e.now) :
    (runTasks e f l s).world = foreignWorld f l s.world := by
  induction l generalizing s with
  | nil => rfl
  | cons t ts ih =>
    show (runTasks e f ts (runTask e f t s)).world = _
    rw [ih (runTask_mid e f h (ht t (by simp)))
      (fun t' ht' hh q hq => ht t' (by simp [ht']) hh q (runTask_poll e f h hq).1), runTask_world e f h]
    rfl

theorem Good.due_poll {s : State W} (h : Good s) {now : Int} :
    ∀ t ∈ dueTasks now s.sched, t.handler = pollHook → ∀ q, s.poll = some q → q.endTime ≤ now := by
  intro t ht hh q hq
  obtain ⟨h1, h2⟩ := (mem_dueTasks h.inv).1 ht
  rw [← (h.poll.busy q hq).2.1 t h2 hh]; exact h1

theorem block_pending (e : Env W) (f : Schedule.Task → Foreign W) {s : State W} (hi : Inv s.sched) (x : Schedule.Task) :
    Pending (block e f s).sched x ↔ Pending (runTasks e f (dueTasks e.now s.sched) s).sched x ∧
      x.time ∉ Schedule.dueKeys e.now s.sched := by
  have hget : ∀ T, (block e f s).sched.store.get T = if T ∈ Schedule.dueKeys e.now s.sched then none
      else (runTasks e f (dueTasks e.now s.sched) s).sched.store.get T := fun T => Schedule.get_eraseAll _ _ T
  unfold Pending
  rw [hget]
  split
  · next h => simp [h]
  · next h => simp [h]

theorem block_inv (e : Env W) (f : Schedule.Task → Foreign W) {s : State W}
    (hi : Inv (runTasks e f (dueTasks e.now s.sched) s).sched) : Inv (block e f s).sched := by
  have hget : ∀ T, (block e f s).sched.store.get T = if T ∈ Schedule.dueKeys e.now s.sched then none
      else (runTasks e f (dueTasks e.now s.sched) s).sched.store.get T := fun T => Schedule.get_eraseAll _ _ T
  have hsub : ∀ T l, (block e f s).sched.store.get T = some l →
      (runTasks e f (dueTasks e.now s.sched) s).sched.store.get T = some l := by
    intro T l hl
    rw [hget] at hl
    split at hl
    · cases hl
    · exact hl
  exact ⟨fun T l hl => hi.bucket T l (hsub T l hl),
    fun T l T' l' a b ha hb => hi.uniq T l T' l' a b (hsub T l ha) (hsub T' l' hb)⟩

theorem SameVote.block (e : Env W) (f : Schedule.Task → Foreign W) (s : State W) :
    SameVote (runTasks e f (dueTasks e.now s.sched) s) (Voting.block e f s) := ⟨rfl, rfl, rfl, rfl, rfl, rfl⟩

theorem block_good (e : Env W) (f : Schedule.Task → Foreign W) {s : State W} (h : Good s) : Good (block e f s) := by
  obtain ⟨h1, h2⟩ := runTasks_mid e f (dueTasks e.now s.sched) (h.mid e.now) h.due_poll
  have hp := block_pending e f h.inv
  have hdue : ∀ x, Pending s.sched x → x.time ≤ e.now → x ∈ dueTasks e.now s.sched := fun x hx hle =>
    (mem_dueTasks h.inv).2 ⟨hle, hx⟩
  have hkey : ∀ T, T ∈ Schedule.dueKeys e.now s.sched → T ≤ e.now := fun T hT => (Schedule.mem_dueKeys.1 hT).1
  have hvs := SameVote.block e f s
  refine ⟨block_inv e f h1.inv, ⟨?_, ?_⟩, ⟨?_, ?_, h1.poll.yes, h1.poll.no⟩, ?_⟩
  · intro hc
    obtain ⟨a1, a2, a3, a4⟩ := h1.vote.idle hc
    exact ⟨a1, a2, a3, fun x hx => a4 x ((hp x).1 hx).1⟩
  · intro p hc
    obtain ⟨a1, ⟨id, a2⟩, a3, a4⟩ := h1.vote.busy p hc
    refine ⟨a1, ⟨id, (hp _).2 ⟨a2, fun hk => ?_⟩⟩, fun x hx hh => a3 x ((hp x).1 hx).1 hh, a4⟩
    -- a due open proposal would have been ended
    rcases h0 : s.current with _ | p0
    · have := (runTasks_idle e f (dueTasks e.now s.sched) (.inl h0)).current
      rw [h0] at this
      have hc : (runTasks e f (dueTasks e.now s.sched) s).current = some p := hc
      rw [this] at hc; cases hc
    · obtain ⟨-, ⟨id0, b2⟩, b3, -⟩ := h.vote.busy p0 h0
      by_cases hle : p0.endTime ≤ e.now
      · obtain ⟨b, -, hn, -⟩ := runTasks_deadline e f _ (h.mid e.now) h.due_poll h0 ⟨_, hdue _ b2 hle, rfl⟩
        have hc : (runTasks e f (dueTasks e.now s.sched) s).current = some p := hc
        rw [hn] at hc; cases hc
      · have hnv : ∀ t ∈ dueTasks e.now s.sched, t.handler ≠ voteHook := by
          intro t ht hh
          obtain ⟨c1, c2⟩ := (mem_dueTasks h.inv).1 ht
          rw [b3 t c2 hh] at c1; exact hle c1
        have := (runTasks_idle e f (dueTasks e.now s.sched) (s := s) (.inr hnv)).current
        have hc : (runTasks e f (dueTasks e.now s.sched) s).current = some p := hc
        rw [this, h0] at hc
        injection hc with hc; subst hc
        exact hle (hkey _ hk)
  · intro hq
    exact h1.poll.idle hq
  · intro q hq
    obtain ⟨⟨id, a1⟩, a2, a3⟩ := h1.poll.busy q hq
    refine ⟨⟨id, (hp _).2 ⟨a1, fun hk => ?_⟩⟩, fun x hx hh => a2 x ((hp x).1 hx).1 hh, a3⟩
    obtain ⟨c1, c2⟩ := h2 q hq
    obtain ⟨⟨id0, b1⟩, -, -⟩ := h.poll.busy q c1
    exact c2 _ (hdue _ b1 (hkey _ hk)) rfl
  · intro hq x hx hh
    obtain ⟨c1, c2⟩ := (hp x).1 hx
    have hle := h1.quiet hq x c1 hh
    -- it was pending before the block, so its key is processed
    have hback : ∀ (l : List Schedule.Task) (s : State W), Mid e.now s →
        (∀ t ∈ l, t.handler = pollHook → ∀ q, s.poll = some q → q.endTime ≤ e.now) →
        Pending (runTasks e f l s).sched x → Pending s.sched x := by
      intro l
      induction l with
      | nil => exact fun s _ _ h => h
      | cons t ts ih =>
        intro s hm ht hx'
        have := ih _ (runTask_mid e f hm (ht t (by simp)))
          (fun t' ht' hh q hq => ht t' (by simp [ht']) hh q (runTask_poll e f hm hq).1) hx'
        unfold runTask at this
        split at this
        · rcases hc : s.current with _ | p
          · rw [processSchedule_none e hc] at this; exact this
          · obtain ⟨b, u, hb, g1, g2⟩ := processSchedule_ends e hm.inv hm.vote hc
            rw [g2] at this
            exact ((g1.pending x).1 this).1
        · split at this
          · rcases hq' : s.poll with _ | q'
            · rw [endPoll_none hq'] at this; exact this
            · obtain ⟨d, u, hd, g4, g5⟩ := endPoll_ends hq' (hm.poll.busy q' hq').2.2
              rw [g5] at this
              simp only at this
              rw [g4.sched] at this; exact this
          · exact ((f t).pending s (.inr hh)).1 this
    have hx0 := hback _ s (h.mid e.now) h.due_poll c1
    apply c2
    obtain ⟨l, hl, -⟩ := hx0
    exact Schedule.mem_dueKeys.2 ⟨hle, l, hl⟩

end Verif.Voting
