import Verif.Voting.Lemmas

/-! Transactions of the voting module and executions. -/
namespace Verif.Voting
open Verif.Util
open Verif.Schedule (Pending Inv)

variable {W : Type}

/-- What an enacted proposal does to the government and to the rest of the chain. -/
def effect (e : Env W) (k : Kind) (g : List Name) (w : W) : List Name × W :=
  match k with
  | .governmentAdd a => (g ++ [text a], w)
  | .governmentRemove a => (g.erase (text a), w)
  | .other k => (g, (e.enact k w).2)

theorem enact_effect (e : Env W) (k : Kind) (s : State W) :
    ((enact e k s).2.gov, (enact e k s).2.world) = effect e k s.gov s.world := by
  cases k with
  | governmentAdd a => rfl
  | governmentRemove a => rfl
  | other k =>
    show ((onWorld (e.enact k) s).2.gov, (onWorld (e.enact k) s).2.world) = _
    unfold onWorld effect
    split <;> simp_all

theorem validate_one (g a d : List Name) : (validate g a d).1 = true ↔ g.length = a.length + d.length := by
  unfold validate; split <;> simp [*]

theorem validate_two {g a d : List Name} (h : g.length = a.length + d.length) :
    (validate g a d).2 = true ↔ 2 * g.length ≤ 3 * a.length := by
  unfold validate; rw [if_pos h]; simp; omega

/-- A successful end of a proposal. -/
theorem endProposal_ok {e : Env W} {p : Proposal} {b : Int} {ag : Bool} {s t : State W} {u : Unit} (hi : Inv s.sched)
    (hr : Schedule.inRange p.endTime = true) (hc : s.current = some p) (hb : s.startBlock = some b)
    (h : endProposal e p ag s = (.ok u, t)) :
    Closed e p b s t ∧ (t.gov, t.world) = if ag then effect e p.kind s.gov s.world else (s.gov, s.world) := by
  have hcl := endProposal_closed e ag hi hr hc hb
  rw [h] at hcl
  refine ⟨hcl, ?_⟩
  obtain ⟨v, h1, h2⟩ := endProposal_eq e ag hi hr hc hb
  rw [h2] at h
  cases ag with
  | false =>
    have : v = t := (M.pure_ok.1 h).2
    subst this; simp [h1.gov, h1.world]
  | true =>
    simp only [if_true] at h ⊢
    have := enact_effect e p.kind v
    rw [h, h1.gov, h1.world] at this
    exact this

/-! ### Propose -/

/-- A successful proposal. -/
theorem propose_ok {e : Env W} {msg : Proposal} {s t : State W} {u : Unit} (hg : Good s)
    (h : propose e msg s = (.ok u, t)) :
    s.current = none ∧ text msg.author.parse ∈ s.gov ∧ ∃ o : State W,
      Good { o with gov := s.gov ++ [msg.author, msg.author] } ∧
      o.gov = s.gov ∧ o.world = s.world ∧ o.current = some { msg with endTime := e.now + e.votingPeriod * e.hour } ∧
      o.agreed = [msg.author] ∧ o.disagreed = [] ∧ o.startBlock = some e.height ∧ o.history = s.history ∧ SamePoll s o ∧
      (if s.gov.length = 1 then endProposal e { msg with endTime := e.now + e.votingPeriod * e.hour } true o = (.ok u, t) else t = o) := by
  unfold propose at h
  rw [M.get_bind_ok] at h
  rw [M.errIf_bind_ok] at h
  obtain ⟨h1, h⟩ := h
  rw [M.errIf_bind_ok] at h
  obtain ⟨h2, h⟩ := h
  have hn : s.current = none := by
    cases hc : s.current with
    | none => rfl
    | some p => rw [hc] at h1; simp at h1
  have hm : text msg.author.parse ∈ s.gov := by simpa [contains] using h2
  refine ⟨hn, hm, ?_⟩
  dsimp only at h
  rw [M.modify_bind_ok] at h
  rw [M.bind_ok_iff] at h
  obtain ⟨u', s1, h3, h⟩ := h
  rw [M.modify_bind_ok] at h
  unfold onSched at h3
  dsimp only at h3
  split at h3
  · next sc hsc =>
    simp only [Prod.mk.injEq, true_and] at h3
    subst h3
    obtain ⟨g1, g2, g3⟩ := schedule_spec hsc hg.inv
    obtain ⟨-, -, -, i4⟩ := hg.vote.idle hn
    refine ⟨{ s with
      current := some { msg with endTime := e.now + e.votingPeriod * e.hour }, agreed := [msg.author], disagreed := [],
      startBlock := some e.height, sched := sc }, ?_, rfl, rfl, rfl, rfl, rfl, rfl, rfl, ⟨rfl, rfl, rfl, rfl, rfl⟩, ?_⟩
    · have hpp : ∀ x : Schedule.Task, x.handler = pollHook → (Pending sc x ↔ Pending s.sched x) := by
        intro x hx
        rw [g3]
        constructor
        · rintro (h | rfl)
          · exact h
          · exact absurd (show _ = _ from hx) (by unfold voteHook pollHook; simp)
        · exact Or.inl
      refine ⟨g1, ⟨by simp, ?_⟩, hg.poll.congr ⟨rfl, rfl, rfl, rfl, rfl⟩ hpp, fun hq x hx hh => ?_⟩
      · intro p hp
        simp only [Option.some.injEq] at hp
        subst hp
        refine ⟨⟨_, rfl⟩, ⟨_, (g3 _).2 (.inr rfl)⟩, fun x hx hh => ?_, ?_, by simp⟩
        · rcases (g3 x).1 hx with hx | rfl
          · exact absurd hh (i4 x hx)
          · rfl
        · simp
      · exact hg.quiet hq x ((hpp x hh).1 hx) hh
    · by_cases hl : s.gov.length = 1
      · rw [if_pos hl]
        have hv : validate s.gov [msg.author] [] = (true, true) := by
          unfold validate; simp [hl]
        rw [hv] at h
        exact h
      · rw [if_neg hl]
        have hv : validate s.gov [msg.author] [] = (false, false) := by
          unfold validate; simp [hl]
        rw [hv] at h
        exact (M.pure_ok.1 h).2.symm
  · simp at h3

theorem Good.of_gov {s : State W} {g : List Name} (h : Good { s with gov := g })
    (hl : s.current ≠ none → s.gov.length ≠ s.agreed.length + s.disagreed.length) : Good s := by
  refine ⟨h.inv, ⟨h.vote.idle, fun p hp => ?_⟩, ⟨h.poll.idle, h.poll.busy, h.poll.yes, h.poll.no⟩, h.quiet⟩
  obtain ⟨h1, h2, h3, -, h5⟩ := h.vote.busy p hp
  exact ⟨h1, h2, h3, hl (by rw [hp]; simp), h5⟩

theorem propose_good (e : Env W) (msg : Proposal) {s : State W} (hg : Good s) : Good (M.tx (propose e msg) s) := by
  rcases M.tx_cases (propose e msg) s with ⟨u, h⟩ | ⟨-, h⟩
  · obtain ⟨hn, hm, o, ho, h1, h2, h3, h4, h5, h6, h7, h8, h9⟩ := propose_ok hg h
    by_cases hl : s.gov.length = 1
    · rw [if_pos hl] at h9
      obtain ⟨-, ⟨id, hid⟩, hv, -⟩ := ho.vote.busy _ h3
      obtain ⟨hcl, -⟩ := endProposal_ok (s := o) ho.inv (Pending.inRange ho.inv hid) h3 h6 h9
      exact hcl.good hv ⟨ho.poll.idle, ho.poll.busy, ho.poll.yes, ho.poll.no⟩ ho.quiet
    · rw [if_neg hl] at h9
      rw [h9]
      refine Good.of_gov ho fun _ => ?_
      rw [h1, h4, h5]; simpa using hl
  · rw [h]; exact hg

/-! ### Vote -/

/-- The lists after a vote. -/
def afterVote (a d : List Name) (v : Addr) (yes : Bool) : List Name × List Name :=
  if yes then (a ++ [text v], d) else (a, d ++ [text v])

theorem vote_ok {e : Env W} {v : Addr} {yes : Bool} {s t : State W} {u : Unit} (h : vote e v yes s = (.ok u, t)) :
    ∃ p, s.current = some p ∧ text v ∈ s.gov ∧ text v ∉ s.agreed ∧ text v ∉ s.disagreed ∧ ∃ o : State W,
      o = { s with agreed := (afterVote s.agreed s.disagreed v yes).1, disagreed := (afterVote s.agreed s.disagreed v yes).2 } ∧
      (if s.gov.length = o.agreed.length + o.disagreed.length
        then endProposal e p (decide (2 * s.gov.length ≤ 3 * o.agreed.length)) o = (.ok u, t) else t = o) := by
  unfold vote at h
  rw [M.get_bind_ok] at h
  have hc : s.current = none ∨ ∃ p, s.current = some p := by cases s.current <;> simp
  rcases hc with hc | ⟨p, hc⟩
  · rw [hc] at h; simp at h
  · rw [hc] at h
    dsimp only at h
    rw [M.errIf_bind_ok] at h
    obtain ⟨h1, h⟩ := h
    rw [M.errIf_bind_ok] at h
    obtain ⟨h2, h⟩ := h
    rw [M.errIf_bind_ok] at h
    obtain ⟨h3, h⟩ := h
    rw [M.modify_bind_ok] at h
    refine ⟨p, hc, by simpa [contains] using h1, by simpa [contains] using h2, by simpa [contains] using h3, _, rfl, ?_⟩
    have ha : (if yes = true then append s.agreed v else s.agreed) = (afterVote s.agreed s.disagreed v yes).1 := by
      unfold afterVote append; cases yes <;> rfl
    have hd : (if yes = true then s.disagreed else append s.disagreed v) = (afterVote s.agreed s.disagreed v yes).2 := by
      unfold afterVote append; cases yes <;> rfl
    rw [ha, hd] at h
    dsimp only
    split
    · next hl =>
      rw [if_pos ((validate_one _ _ _).2 hl)] at h
      have : (validate s.gov (afterVote s.agreed s.disagreed v yes).1 (afterVote s.agreed s.disagreed v yes).2).2
          = decide (2 * s.gov.length ≤ 3 * (afterVote s.agreed s.disagreed v yes).1.length) := by
        rw [Bool.eq_iff_iff, validate_two hl]; simp
      rw [this] at h
      exact h
    · next hl =>
      rw [if_neg (fun hh => hl ((validate_one _ _ _).1 hh))] at h
      exact (M.pure_ok.1 h).2.symm

theorem vote_good (e : Env W) (v : Addr) (yes : Bool) {s : State W} (hg : Good s) : Good (M.tx (vote e v yes) s) := by
  rcases M.tx_cases (vote e v yes) s with ⟨u, h⟩ | ⟨-, h⟩
  · obtain ⟨p, hc, h1, h2, h3, o, ho, h4⟩ := vote_ok h
    obtain ⟨⟨b, hb⟩, ⟨id, hid⟩, hv, -, hau⟩ := hg.vote.busy p hc
    split at h4
    · have hb' : o.startBlock = some b := by rw [ho]; exact hb
      have hc' : o.current = some p := by rw [ho]; exact hc
      have hs' : o.sched = s.sched := by rw [ho]
      obtain ⟨hcl, -⟩ := endProposal_ok (s := o) (by rw [hs']; exact hg.inv) (Pending.inRange hg.inv hid) hc' hb' h4
      refine hcl.good (by rw [hs']; exact hv) (hg.poll.congr (by rw [ho]; exact ⟨rfl, rfl, rfl, rfl, rfl⟩) (by rw [hs']; simp)) ?_
      rw [hs', ho]; exact hg.quiet
    · next hl =>
      rw [h4]
      subst ho
      refine ⟨hg.inv, ⟨fun hn => ?_, fun q hq => ?_⟩, ⟨hg.poll.idle, hg.poll.busy, hg.poll.yes, hg.poll.no⟩, hg.quiet⟩
      · have hn : s.current = none := hn
        rw [hc] at hn; cases hn
      · have hq : s.current = some q := hq
        rw [hc] at hq; injection hq with hq; subst hq
        refine ⟨⟨b, hb⟩, ⟨id, hid⟩, hv, hl, ?_⟩
        show p.author ∈ (afterVote s.agreed s.disagreed v yes).1
        unfold afterVote
        cases yes
        · exact hau
        · exact List.mem_append_left _ hau
  · rw [h]; exact hg

/-! ### Polls -/

theorem startPoll_ok {e : Env W} {msg : Poll} {s t : State W} {u : Unit} (h : startPoll e msg s = (.ok u, t)) :
    quorumOk msg.quorum = true ∧ s.poll = none ∧ msg.author ∈ s.gov ∧ ∃ sc,
      (Schedule.Req.schedule (e.now + e.pollPeriod * e.hour) pollHook []).exec? s.sched = some sc ∧
      t = { s with sched := sc, poll := some { msg with startTime := e.now, endTime := e.now + e.pollPeriod * e.hour } } := by
  unfold startPoll at h
  rw [M.errIf_bind_ok] at h
  obtain ⟨h0, h⟩ := h
  rw [M.get_bind_ok] at h
  rw [M.errIf_bind_ok] at h
  obtain ⟨h1, h⟩ := h
  rw [M.errIf_bind_ok] at h
  obtain ⟨h2, h⟩ := h
  rw [M.bind_ok_iff] at h
  obtain ⟨u', s1, h3, h⟩ := h
  have hn : s.poll = none := by
    cases hc : s.poll with
    | none => rfl
    | some p => rw [hc] at h1; simp at h1
  unfold onSched at h3
  split at h3
  · next sc hsc =>
    simp only [Prod.mk.injEq, true_and] at h3
    subst h3
    rw [M.modify_apply] at h
    simp only [Prod.mk.injEq] at h
    exact ⟨by simpa using h0, hn, by simpa using h2, sc, hsc, h.2.symm⟩
  · simp at h3

theorem startPoll_good (e : Env W) (msg : Poll) {s : State W} (hg : Good s) : Good (M.tx (startPoll e msg) s) := by
  rcases M.tx_cases (startPoll e msg) s with ⟨u, h⟩ | ⟨-, h⟩
  · obtain ⟨h1, h2, -, sc, h3, h4⟩ := startPoll_ok h
    rw [h4]
    obtain ⟨g1, g2, g3⟩ := schedule_spec h3 hg.inv
    have hpv : ∀ x : Schedule.Task, x.handler = voteHook → (Pending sc x ↔ Pending s.sched x) := by
      intro x hx
      rw [g3]
      constructor
      · rintro (h | rfl)
        · exact h
        · exact absurd (show _ = _ from hx) (by unfold voteHook pollHook; simp)
      · exact Or.inl
    refine ⟨g1, hg.vote.congr ⟨rfl, rfl, rfl, rfl, rfl, rfl⟩ hpv, ⟨by simp, fun q hq => ?_, hg.poll.yes, hg.poll.no⟩, by simp⟩
    simp only [Option.some.injEq] at hq
    subst hq
    refine ⟨⟨_, (g3 _).2 (.inr rfl)⟩, fun x hx hh => ?_, h1⟩
    rcases (g3 x).1 hx with hx | rfl
    · exact absurd hh (hg.quiet h2 x hx)
    · rfl
  · rw [h]; exact hg

theorem answer_ok {e : Env W} {acc : Name} {y : Bool} {s t : State W} {u : Unit} (h : answer e acc y s = (.ok u, t)) :
    (∃ q, s.poll = some q ∧ allowed? e s.world acc q.requirement = some true) ∧ s.answers.get acc.key = none ∧
    t = { s with
      answers := s.answers.set acc.key y
      yes := if y then (s.yes + 1) % 2 ^ 64 else s.yes
      no := if y then s.no else (s.no + 1) % 2 ^ 64 } := by
  unfold answer at h
  rw [M.get_bind_ok] at h
  have hc : s.poll = none ∨ ∃ q, s.poll = some q := by cases s.poll <;> simp
  rcases hc with hc | ⟨q, hc⟩
  · rw [hc] at h; simp at h
  · rw [hc] at h
    dsimp only at h
    rw [M.orPanic_bind_ok] at h
    obtain ⟨ok, h1, h⟩ := h
    rw [M.errIf_bind_ok] at h
    obtain ⟨h2, h⟩ := h
    rw [M.errIf_bind_ok] at h
    obtain ⟨h3, h⟩ := h
    rw [M.modify_apply] at h
    simp only [Prod.mk.injEq] at h
    refine ⟨⟨q, hc, ?_⟩, ?_, h.2.symm⟩
    · rw [h1]; simpa using h2
    · unfold KV.has at h3; simpa using h3

theorem count_eq (m : KV Nat Bool) (b : Bool) : (count m b : Int) = KV.sum (fun _ v => if v == b then 1 else 0) m := by
  unfold count KV.values KV.sum
  induction m.entries with
  | nil => rfl
  | cons x l ih =>
    simp only [List.map_cons, List.filter_cons, List.sum_cons]
    split
    · simp only [List.length_cons]; push_cast; rw [ih]; ring
    · rw [ih]; simp

theorem count_set {m : KV Nat Bool} {k : Nat} (h : m.get k = none) (y b : Bool) :
    count (m.set k y) b = count m b + if y == b then 1 else 0 := by
  have h1 := count_eq (m.set k y) b
  rw [KV.sum_set, h, KV.part_none, ← count_eq] at h1
  split
  · next hh => rw [if_pos hh] at h1; omega
  · next hh => rw [if_neg hh] at h1; omega

theorem answer_good (e : Env W) (acc : Name) (y : Bool) {s : State W} (hg : Good s) : Good (M.tx (answer e acc y) s) := by
  rcases M.tx_cases (answer e acc y) s with ⟨u, h⟩ | ⟨-, h⟩
  · obtain ⟨⟨q, hq, -⟩, h2, h3⟩ := answer_ok h
    rw [h3]
    refine ⟨hg.inv, ⟨hg.vote.idle, hg.vote.busy⟩, ⟨fun hn => ?_, hg.poll.busy, ?_, ?_⟩, hg.quiet⟩
    · have hn : s.poll = none := hn
      rw [hq] at hn; cases hn
    · show (if y = true then (s.yes + 1) % 2 ^ 64 else s.yes) = count (s.answers.set acc.key y) true % 2 ^ 64
      rw [count_set h2, hg.poll.yes]
      cases y <;> simp
    · show (if y = true then s.no else (s.no + 1) % 2 ^ 64) = count (s.answers.set acc.key y) false % 2 ^ 64
      rw [count_set h2, hg.poll.no]
      cases y <;> simp
  · rw [h]; exact hg

/-! ### Executions -/

/-- An execution: each step with its moment and surroundings. -/
def run (s : State W) : List (Env W × Op W) → State W
  | [] => s
  | (e, op) :: r => run (op.run e s) r

theorem foreign_good (f : Foreign W) {s : State W} (h : Good s) : Good (f.run s) :=
  ⟨Foreign.inv _ h.inv, h.vote.congr (f.sameVote s) (fun _ hx => f.pending s (.inl hx)),
    h.poll.congr (f.samePoll s) (fun _ hx => f.pending s (.inr hx)),
    fun hn x hx hh => h.quiet hn x ((f.pending s (.inr hh)).1 hx) hh⟩

theorem step_good (e : Env W) (op : Op W) {s : State W} (h : Good s) : Good (op.run e s) := by
  cases op with
  | propose msg => exact propose_good e msg h
  | vote v a => exact vote_good e v.parse a h
  | startPoll msg => exact startPoll_good e msg h
  | answer acc y => exact answer_good e acc y h
  | foreign f => exact foreign_good f h
  | block f => exact block_good e f h

theorem run_good (l : List (Env W × Op W)) {s : State W} (h : Good s) : Good (run s l) := by
  induction l generalizing s with
  | nil => exact h
  | cons x r ih => exact ih (step_good x.1 x.2 h)

/-- The schedule of a new chain has no tasks of this module. -/
structure Start (sched : Schedule.State) : Prop where
  inv : Inv sched
  none : ∀ x, Pending sched x → x.handler ≠ voteHook ∧ x.handler ≠ pollHook

theorem fresh_good {gov : List Name} {sched : Schedule.State} (w : W) (h : Start sched) : Good (fresh gov sched w) := by
  refine ⟨h.inv, ⟨fun _ => ⟨rfl, rfl, rfl, fun x hx => (h.none x hx).1⟩, by simp [fresh]⟩,
    ⟨fun _ => ⟨rfl, rfl, rfl⟩, by simp [fresh], rfl, rfl⟩, fun _ x hx => (h.none x hx).2⟩

/-- What the rest of the chain does by itself in a step. -/
def outside (e : Env W) (s : State W) : Op W → W
  | .foreign f => f.world s.world
  | .block f => foreignWorld f (dueTasks e.now s.sched) s.world
  | _ => s.world

theorem block_world (e : Env W) (f : Schedule.Task → Foreign W) {s : State W} (h : Good s) :
    (block e f s).world = foreignWorld f (dueTasks e.now s.sched) s.world :=
  runTasks_world e f _ (h.mid e.now) h.due_poll

/-- A block before the deadline leaves the proposal alone. -/
theorem block_open (e : Env W) (f : Schedule.Task → Foreign W) {s : State W} (h : Good s)
    (hp : ∀ p, s.current = some p → e.now < p.endTime) : SameVote s (block e f s) := by
  refine SameVote.trans (runTasks_idle e f (dueTasks e.now s.sched) ?_) (SameVote.block e f s)
  rcases hc : s.current with _ | p
  · exact .inl rfl
  · right
    intro t ht hh
    obtain ⟨c1, c2⟩ := (mem_dueTasks h.inv).1 ht
    rw [(h.vote.busy p hc).2.2.1 t c2 hh] at c1
    exact absurd c1 (by have := hp p hc; omega)

/-- A block at or after the deadline ends it. -/
theorem block_deadline (e : Env W) (f : Schedule.Task → Foreign W) {s : State W} (h : Good s) {p : Proposal}
    (hc : s.current = some p) (hp : p.endTime ≤ e.now) :
    ∃ b, s.startBlock = some b ∧ (block e f s).current = none ∧ (block e f s).gov = s.gov ∧
      (block e f s).history = s.history.set e.height ⟨p, s.gov, s.agreed, s.disagreed, b, e.height⟩ := by
  obtain ⟨-, ⟨id, hid⟩, -⟩ := h.vote.busy p hc
  exact runTasks_deadline e f _ (h.mid e.now) h.due_poll hc ⟨_, (mem_dueTasks h.inv).2 ⟨hp, hid⟩, rfl⟩

end Verif.Voting
