import Verif.Voting.Steps
import Mathlib.Data.List.Perm.Subperm
import Mathlib.Tactic.FieldSimp

/-! Properties C35–C38. -/
namespace Verif.Voting
open Verif.Util
open Verif.Schedule (Pending Inv)

variable {W : Type}

/-- All proposals come with the author's address in lower case, as `AccAddress.String` writes it. -/
def Canonical (op : Op W) : Prop := ∀ msg, op = .propose msg → msg.author.upper = false

/-! ### What a step does to the open vote -/

/-- Outcome of a step for the vote: nothing, a proposal opened, a vote cast, or the end of the proposal `p` with the lists
`a`, `d`. -/
inductive Outcome (e : Env W) (op : Op W) (s t : State W) : Prop
  | same (h : SameVote s t) (hw : t.world = outside e s op)
      (hb : ∀ f p, op = .block f → s.current = some p → e.now < p.endTime)
  | opened (msg : Proposal) (hop : op = .propose msg) (hn : s.current = none) (hm : text msg.author.parse ∈ s.gov)
      (hc : t.current = some { msg with endTime := e.now + e.votingPeriod * e.hour }) (ha : t.agreed = [msg.author])
      (hd : t.disagreed = []) (hg : t.gov = s.gov) (hw : t.world = s.world) (hh : t.history = s.history)
      (hl : s.gov.length ≠ 1)
  | cast (v : Name) (y : Bool) (p : Proposal) (hop : op = .vote v y) (hc : s.current = some p) (hc' : t.current = some p)
      (hm : text v.parse ∈ s.gov) (h1 : text v.parse ∉ s.agreed) (h2 : text v.parse ∉ s.disagreed)
      (ha : (t.agreed, t.disagreed) = afterVote s.agreed s.disagreed v.parse y) (hg : t.gov = s.gov)
      (hw : t.world = s.world) (hh : t.history = s.history)
  | ended (p : Proposal) (a d : List Name) (b : Int) (hc : t.current = none)
      (hh : t.history = s.history.set e.height ⟨p, s.gov, a, d, b, e.height⟩)
      (how : (∃ msg, op = .propose msg ∧ s.current = none ∧ text msg.author.parse ∈ s.gov ∧
                p = { msg with endTime := e.now + e.votingPeriod * e.hour } ∧ a = [msg.author] ∧ d = [] ∧ s.gov.length = 1 ∧ b = e.height) ∨
             (∃ v y, op = .vote v y ∧ s.current = some p ∧ s.startBlock = some b ∧ text v.parse ∈ s.gov ∧ text v.parse ∉ s.agreed ∧
                text v.parse ∉ s.disagreed ∧ (a, d) = afterVote s.agreed s.disagreed v.parse y ∧ s.gov.length = a.length + d.length) ∨
             (∃ f, op = .block f ∧ s.current = some p ∧ s.startBlock = some b ∧ p.endTime ≤ e.now ∧ a = s.agreed ∧ d = s.disagreed))
      (hw : (t.gov, t.world) = if s.gov.length = a.length + d.length ∧ 2 * s.gov.length ≤ 3 * a.length
        then effect e p.kind s.gov s.world else (s.gov, outside e s op))

theorem outcome (e : Env W) (op : Op W) {s : State W} (hg : Good s) : Outcome e op s (op.run e s) := by
  cases op with
  | propose msg =>
    show Outcome e _ s (M.tx (propose e msg) s)
    rcases M.tx_cases (propose e msg) s with ⟨u, h⟩ | ⟨-, h⟩
    · obtain ⟨hn, hm, o, ho, h1, h2, h3, h4, h5, h6, h7, h8, h9⟩ := propose_ok hg h
      split at h9
      · next hl =>
        obtain ⟨-, ⟨id, hid⟩, -⟩ := ho.vote.busy _ h3
        obtain ⟨hcl, hgw⟩ := endProposal_ok (s := o) ho.inv (Pending.inRange ho.inv hid) h3 h6 h9
        have hh := hcl.history
        rw [h7, h1, h4, h5] at hh
        refine .ended _ _ _ _ hcl.current hh (.inl ⟨msg, rfl, hn, hm, rfl, rfl, rfl, hl, rfl⟩) ?_
        rw [hgw, if_pos rfl, if_pos ⟨by simp [hl], by simp [hl]⟩, h1, h2]
      · next hl =>
        rw [h9]
        exact .opened msg rfl hn hm h3 h4 h5 h1 h2 h7 hl
    · rw [h]; exact .same ⟨rfl, rfl, rfl, rfl, rfl, rfl⟩ rfl (by simp)
  | vote v y =>
    show Outcome e _ s (M.tx (vote e v.parse y) s)
    rcases M.tx_cases (vote e v.parse y) s with ⟨u, h⟩ | ⟨-, h⟩
    · obtain ⟨p, hc, h1, h2, h3, o, ho, h4⟩ := vote_ok h
      obtain ⟨⟨b, hb⟩, ⟨id, hid⟩, hv, -, hau⟩ := hg.vote.busy p hc
      split at h4
      · next hl =>
        have hs' : o.sched = s.sched := by rw [ho]
        obtain ⟨hcl, hgw⟩ := endProposal_ok (s := o) (by rw [hs']; exact hg.inv) (Pending.inRange hg.inv hid)
          (by rw [ho]; exact hc) (show o.startBlock = some b by rw [ho]; exact hb) h4
        have hh := hcl.history
        have e1 : o.gov = s.gov := by rw [ho]
        have e2 : o.world = s.world := by rw [ho]
        have e3 : o.history = s.history := by rw [ho]
        rw [e3, e1] at hh
        have e4 : (o.agreed, o.disagreed) = afterVote s.agreed s.disagreed v.parse y := by rw [ho]
        refine .ended _ _ _ _ hcl.current hh (.inr (.inl ⟨v, y, rfl, hc, hb, h1, h2, h3, e4, hl⟩)) ?_
        rw [hgw, e1, e2]
        by_cases h5 : 2 * s.gov.length ≤ 3 * o.agreed.length
        · rw [if_pos (by simpa using h5), if_pos ⟨hl, h5⟩]
        · rw [if_neg (by simpa using h5), if_neg (by tauto)]; rfl
      · next hl =>
        rw [h4]
        subst ho
        exact .cast v y p rfl hc hc h1 h2 h3 rfl rfl rfl rfl
    · rw [h]; exact .same ⟨rfl, rfl, rfl, rfl, rfl, rfl⟩ rfl (by simp)
  | startPoll msg =>
    show Outcome e _ s (M.tx (startPoll e msg) s)
    rcases M.tx_cases (startPoll e msg) s with ⟨u, h⟩ | ⟨-, h⟩
    · obtain ⟨-, -, -, sc, -, h4⟩ := startPoll_ok h
      rw [h4]; exact .same ⟨rfl, rfl, rfl, rfl, rfl, rfl⟩ rfl (by simp)
    · rw [h]; exact .same ⟨rfl, rfl, rfl, rfl, rfl, rfl⟩ rfl (by simp)
  | answer acc y =>
    show Outcome e _ s (M.tx (answer e acc y) s)
    rcases M.tx_cases (answer e acc y) s with ⟨u, h⟩ | ⟨-, h⟩
    · obtain ⟨-, -, h4⟩ := answer_ok h
      rw [h4]; exact .same ⟨rfl, rfl, rfl, rfl, rfl, rfl⟩ rfl (by simp)
    · rw [h]; exact .same ⟨rfl, rfl, rfl, rfl, rfl, rfl⟩ rfl (by simp)
  | foreign f => exact .same (f.sameVote s) rfl (by simp)
  | block f =>
    by_cases hd : ∃ p, s.current = some p ∧ p.endTime ≤ e.now
    · obtain ⟨p, hc, hp⟩ := hd
      obtain ⟨b, hb, h1, h2, h3⟩ := block_deadline e f hg hc hp
      refine .ended p s.agreed s.disagreed b h1 h3 (.inr (.inr ⟨f, rfl, hc, hb, hp, rfl, rfl⟩)) ?_
      rw [if_neg (fun hh => (hg.vote.busy p hc).2.2.2.1 hh.1)]
      show ((block e f s).gov, (block e f s).world) = _
      rw [h2, block_world e f hg]; rfl
    · have hd' : ∀ p, s.current = some p → e.now < p.endTime := by
        intro p hp
        by_contra hle
        exact hd ⟨p, hp, by omega⟩
      exact .same (block_open e f hg hd') (block_world e f hg) (fun _ p _ hp => hd' p hp)

/-! ### C35 -/

/-- The ballot as the claim wants it: only governors, no account twice. -/
structure Ballot (s : State W) : Prop where
  governors : ∀ n ∈ s.agreed ++ s.disagreed, n ∈ s.gov ∧ n.upper = false
  once : (s.agreed ++ s.disagreed).Nodup

theorem afterVote_perm (a d : List Name) (v : Addr) (y : Bool) :
    ((afterVote a d v y).1 ++ (afterVote a d v y).2).Perm (text v :: (a ++ d)) := by
  unfold afterVote
  cases y
  · simp only [Bool.false_eq_true, if_false]
    rw [← List.append_assoc]
    exact (List.perm_append_singleton _ _)
  · simp only [if_true]
    have : (a ++ [text v] ++ d).Perm (text v :: (a ++ d)) := by
      rw [List.append_assoc]; exact List.perm_middle
    exact this

theorem Good.ended_lists {s : State W} (h : Good s) (hc : s.current = none) : s.agreed = [] ∧ s.disagreed = [] :=
  ⟨(h.vote.idle hc).1, (h.vote.idle hc).2.1⟩

theorem name_eq {n : Name} (h : n.upper = false) : text n.parse = n := by
  obtain ⟨a, u⟩ := n
  simp only at h; subst h; rfl

theorem step_ballot (e : Env W) (op : Op W) {s : State W} (hg : Good s) (hop : Canonical op) (hb : Ballot s) :
    Ballot (op.run e s) := by
  have hg' := step_good e op hg
  rcases outcome e op hg with ⟨h, -, -⟩ | ⟨msg, rfl, hn, hm, hc, ha, hd, hgov, -, -, -⟩ |
      ⟨v, y, p, rfl, hc, hc', hm, h1, h2, ha, hgov, -, -⟩ | ⟨p, a, d, b, hc, -, -, -⟩
  · exact ⟨by rw [h.agreed, h.disagreed, h.gov]; exact hb.governors, by rw [h.agreed, h.disagreed]; exact hb.once⟩
  · have hu := hop msg rfl
    constructor
    · rw [ha, hd, hgov]
      simp only [List.append_nil, List.mem_singleton, forall_eq]
      refine ⟨?_, hu⟩
      rw [name_eq hu] at hm; exact hm
    · rw [ha, hd]; simp
  · simp only [Prod.ext_iff] at ha
    have hp := afterVote_perm s.agreed s.disagreed v.parse y
    constructor
    · intro n hn
      rw [ha.1, ha.2, hp.mem_iff, List.mem_cons] at hn
      rw [hgov]
      rcases hn with rfl | hn
      · exact ⟨hm, rfl⟩
      · exact hb.governors n hn
    · rw [ha.1, ha.2, hp.nodup_iff, List.nodup_cons]
      refine ⟨fun hh => ?_, hb.once⟩
      rcases List.mem_append.1 hh with hh | hh
      · exact h1 hh
      · exact h2 hh
  · obtain ⟨h1, h2⟩ := hg'.ended_lists hc
    exact ⟨by rw [h1, h2]; simp, by rw [h1, h2]; simp⟩

/-- A state of the chain: some government, a schedule without leftovers, and an execution with canonical authors. -/
inductive Reachable : State W → Prop
  | start {gov : List Name} {sched : Schedule.State} (w : W) (h : Start sched) : Reachable (fresh gov sched w)
  | step {s : State W} (e : Env W) (op : Op W) (h : Reachable s) (hop : Canonical op) : Reachable (op.run e s)

theorem Reachable.good {s : State W} (h : Reachable s) : Good s := by
  induction h with
  | start w h => exact fresh_good w h
  | step e op _ _ ih => exact step_good e op ih

theorem Reachable.ballot {s : State W} (h : Reachable s) : Ballot s := by
  induction h with
  | start w h => exact ⟨by simp [fresh], by simp [fresh]⟩
  | step e op hr hop ih => exact step_ballot e op hr.good hop ih

theorem Reachable.run {s : State W} (h : Reachable s) (l : List (Env W × Op W)) (hl : ∀ x ∈ l, Canonical x.2) :
    Reachable (run s l) := by
  induction l generalizing s with
  | nil => exact h
  | cons x r ih => exact ih (.step x.1 x.2 h (hl x (by simp))) (fun y hy => hl y (by simp [hy]))

/-- **C35**, for executions in which proposals carry their author's address in lower case: only governors are on the lists, no
account twice, and the author is on the yes-list. -/
theorem C35_one_vote_each_partial {gov : List Name} {sched : Schedule.State} (w : W) (hs : Start sched)
    (l : List (Env W × Op W)) (hl : ∀ x ∈ l, Canonical x.2) :
    let s := run (fresh gov sched w) l
    (∀ n ∈ s.agreed ++ s.disagreed, n ∈ s.gov) ∧ ((s.agreed ++ s.disagreed).map Name.addr).Nodup ∧
    (∀ p, s.current = some p → p.author ∈ s.agreed) ∧ (s.current = none → s.agreed = [] ∧ s.disagreed = []) := by
  intro s
  have hr : Reachable s := (Reachable.start w hs).run l hl
  have hb := hr.ballot
  refine ⟨fun n hn => (hb.governors n hn).1, ?_, fun p hp => (hr.good.vote.busy p hp).2.2.2.2, hr.good.ended_lists⟩
  refine hb.once.map_on ?_
  intro a ha b hb' hab
  have h1 := (hb.governors a ha).2
  have h2 := (hb.governors b hb').2
  cases a; cases b; simp_all

/-- In every execution at all: only governors' accounts are on the lists. -/
theorem C35_only_governors {gov : List Name} {sched : Schedule.State} (w : W) (hs : Start sched) (l : List (Env W × Op W)) :
    let s := run (fresh gov sched w) l
    ∀ n ∈ s.agreed ++ s.disagreed, text n.addr ∈ s.gov := by
  have : ∀ (l : List (Env W × Op W)) (s : State W), Good s → (∀ n ∈ s.agreed ++ s.disagreed, text n.addr ∈ s.gov) →
      ∀ n ∈ (run s l).agreed ++ (run s l).disagreed, text n.addr ∈ (run s l).gov := by
    intro l
    induction l with
    | nil => exact fun _ _ h => h
    | cons x r ih =>
      intro s hg hm
      refine ih _ (step_good x.1 x.2 hg) ?_
      have hg' := step_good x.1 x.2 hg
      rcases outcome x.1 x.2 hg with ⟨h, -, -⟩ | ⟨msg, -, hn, hm, hc, ha, hd, hgov, -, -, -⟩ |
          ⟨v, y, p, -, hc, hc', hv, h1, h2, ha, hgov, -, -⟩ | ⟨p, a, d, b, hc, -, -, -⟩
      · rw [h.agreed, h.disagreed, h.gov]; exact hm
      · rw [ha, hd, hgov]; simp only [List.append_nil, List.mem_singleton, forall_eq]; exact hm
      · simp only [Prod.ext_iff] at ha
        intro n hn
        rw [ha.1, ha.2, (afterVote_perm s.agreed s.disagreed v.parse y).mem_iff, List.mem_cons] at hn
        rw [hgov]
        rcases hn with rfl | hn
        · exact hv
        · exact hm n hn
      · obtain ⟨h1, h2⟩ := hg'.ended_lists hc
        rw [h1, h2]; simp
  exact this l _ (fresh_good w hs) (by simp [fresh])

/-- At most one proposal is open: a second one is refused while one is open. -/
theorem C35_one_at_a_time (e : Env W) (msg : Proposal) {s : State W} (h : s.current ≠ none) :
    propose e msg s = (.err, s) := by
  unfold propose
  rw [M.bind_ok (M.get_apply s)]
  have : s.current.isSome = true := by
    cases hc : s.current with
    | none => exact absurd hc h
    | some p => rfl
  rw [this]
  exact M.bind_err (M.errIf_true s)

/-! ### C36 -/

/-- Everyone in the government has voted. -/
def Everyone (gov a d : List Name) : Prop := ∀ g ∈ gov, g ∈ a ∨ g ∈ d

theorem everyone_iff {gov a d : List Name} (hg : gov.Nodup) (hsub : ∀ n ∈ a ++ d, n ∈ gov) (hn : (a ++ d).Nodup) :
    Everyone gov a d ↔ gov.length = a.length + d.length := by
  have hsp : (a ++ d).Subperm gov := hn.subperm hsub
  constructor
  · intro h
    have : gov.Subperm (a ++ d) := hg.subperm (fun g hg => List.mem_append.2 (h g hg))
    have h1 := this.length_le
    have h2 := hsp.length_le
    rw [List.length_append] at h1 h2; omega
  · intro h g hgm
    have := hsp.perm_of_length_le (by rw [List.length_append]; omega)
    exact List.mem_append.1 (this.mem_iff.2 hgm)

/-- Everyone voted and at least two thirds of the government agreed. -/
def Accepted (gov a d : List Name) : Prop := Everyone gov a d ∧ 2 * gov.length ≤ 3 * a.length

/-- **C36**, for reachable states (canonical authors) with a government free of duplicates: whatever happens next, an open
proposal either stays open – then not everyone has voted and, in a block, its time is not over – and nothing takes effect; or it
ends, is recorded, and takes effect exactly if everyone voted and two thirds agreed. -/
theorem C36_open_proposal_partial (e : Env W) (op : Op W) {s : State W} (hr : Reachable s) (hop : Canonical op)
    (hgov : s.gov.Nodup) {p : Proposal} (hc : s.current = some p) :
    let t := op.run e s
    (t.current = some p ∧ t.history = s.history ∧ ¬ Everyone t.gov t.agreed t.disagreed ∧
      (∀ f, op = .block f → e.now < p.endTime) ∧ (t.gov, t.world) = (s.gov, outside e s op)) ∨
    (t.current = none ∧ ∃ a d b, t.history = s.history.set e.height ⟨p, s.gov, a, d, b, e.height⟩ ∧
      s.startBlock = some b ∧ (∀ n ∈ s.agreed, n ∈ a) ∧ (∀ n ∈ s.disagreed, n ∈ d) ∧
      ((Accepted s.gov a d ∧ (t.gov, t.world) = effect e p.kind s.gov s.world) ∨
       (¬ Accepted s.gov a d ∧ (t.gov, t.world) = (s.gov, outside e s op)))) := by
  intro t
  have hg := hr.good
  have hb := hr.ballot
  have hb' : Ballot t := step_ballot e op hg hop hb
  have hg' : Good t := step_good e op hg
  have hopen : t.current = some p → t.gov = s.gov → ¬ Everyone t.gov t.agreed t.disagreed := by
    intro h1 h2 h3
    rw [everyone_iff (h2 ▸ hgov) (fun n hn => (hb'.governors n hn).1) hb'.once] at h3
    exact (hg'.vote.busy p h1).2.2.2.1 h3
  rcases outcome e op hg with ⟨h, hw, hd⟩ | ⟨msg, rfl, hn, -⟩ |
      ⟨v, y, q, rfl, hq, hq', hm, h1, h2, ha, hgv, hw, hh⟩ | ⟨q, a, d, b, hc', hh, how, hw⟩
  · left
    have hc' : t.current = some p := h.current.trans hc
    refine ⟨hc', h.history, hopen hc' h.gov, fun f hf => hd f p hf hc, ?_⟩
    exact Prod.ext h.gov hw
  · rw [hc] at hn; cases hn
  · left
    rw [hc] at hq; injection hq with hq; subst hq
    exact ⟨hq', hh, hopen hq' hgv, by simp, Prod.ext hgv hw⟩
  · right
    rcases how with ⟨msg, -, hn, -⟩ | ⟨v, y, rfl, hq, hb0, hm, h1, h2, ha, hl⟩ | ⟨f, rfl, hq, hb0, hp, rfl, rfl⟩
    · rw [hc] at hn; cases hn
    · rw [hc] at hq; injection hq with hq; subst hq
      simp only [Prod.ext_iff] at ha
      have hperm := afterVote_perm s.agreed s.disagreed v.parse y
      rw [← ha.1, ← ha.2] at hperm
      have hev : Everyone s.gov a d := by
        rw [everyone_iff hgov]
        · exact hl
        · intro n hn
          rw [hperm.mem_iff, List.mem_cons] at hn
          rcases hn with rfl | hn
          · exact hm
          · exact (hb.governors n hn).1
        · rw [hperm.nodup_iff, List.nodup_cons]
          refine ⟨fun hh => ?_, hb.once⟩
          rcases List.mem_append.1 hh with hh | hh
          · exact h1 hh
          · exact h2 hh
      refine ⟨hc', a, d, b, hh, hb0, ?_, ?_, ?_⟩
      · intro n hn
        rw [ha.1]; unfold afterVote
        cases y
        · exact hn
        · exact List.mem_append_left _ hn
      · intro n hn
        rw [ha.2]; unfold afterVote
        cases y
        · exact List.mem_append_left _ hn
        · exact hn
      · by_cases h5 : 2 * s.gov.length ≤ 3 * a.length
        · left; rw [if_pos ⟨hl, h5⟩] at hw; exact ⟨⟨hev, h5⟩, hw⟩
        · right
          refine ⟨fun hh => h5 hh.2, ?_⟩
          rw [if_neg (by tauto)] at hw; exact hw
    · rw [hc] at hq; injection hq with hq; subst hq
      have hne := (hg.vote.busy p hc).2.2.2.1
      refine ⟨hc', s.agreed, s.disagreed, b, hh, hb0, fun _ h => h, fun _ h => h, .inr ⟨fun hacc => ?_, ?_⟩⟩
      · exact hne ((everyone_iff hgov (fun n hn => (hb.governors n hn).1) hb.once).1 hacc.1)
      · rw [if_neg (fun hh => hne hh.1)] at hw; exact hw

/-- **C36**, the deadline (in every execution): the first block at or after the end of the voting period closes the proposal
without effect and records it. -/
theorem C36_deadline {gov : List Name} {sched : Schedule.State} (w : W) (hs : Start sched) (l : List (Env W × Op W)) (e : Env W)
    (f : Schedule.Task → Foreign W) {p : Proposal} (hc : (run (fresh gov sched w) l).current = some p) (hp : p.endTime ≤ e.now) :
    let s := run (fresh gov sched w) l
    let t := (Op.block f).run e s
    t.current = none ∧ t.gov = s.gov ∧ t.world = outside e s (.block f) ∧
      ∃ b, t.history = s.history.set e.height ⟨p, s.gov, s.agreed, s.disagreed, b, e.height⟩ := by
  intro s t
  have hg : Good s := run_good l (fresh_good w hs)
  obtain ⟨b, -, h1, h2, h3⟩ := block_deadline e f hg hc hp
  exact ⟨h1, h2, block_world e f hg, b, h3⟩

/-- **C36**, nothing else takes effect: without an open proposal only a proposal of the sole governor does. -/
theorem C36_no_proposal_no_effect (e : Env W) (op : Op W) {s : State W} (hr : Reachable s) (hc : s.current = none)
    (hop : Canonical op) :
    let t := op.run e s
    ((t.gov, t.world) = (s.gov, outside e s op) ∧ t.history = s.history) ∨
    (∃ msg b, op = .propose msg ∧ s.gov = [msg.author] ∧ t.current = none ∧
      t.history = s.history.set e.height ⟨{ msg with endTime := e.now + e.votingPeriod * e.hour }, s.gov, [msg.author], [], b, e.height⟩ ∧
      (t.gov, t.world) = effect e msg.kind s.gov s.world) := by
  intro t
  rcases outcome e op hr.good with ⟨h, hw, hd⟩ | ⟨msg, rfl, hn, hm, hc', ha, hd, hgv, hw, hh, hl⟩ |
      ⟨v, y, q, rfl, hq, -⟩ | ⟨q, a, d, b, hc', hh, how, hw⟩
  · exact .inl ⟨Prod.ext h.gov hw, h.history⟩
  · exact .inl ⟨Prod.ext hgv hw, hh⟩
  · rw [hc] at hq; cases hq
  · rcases how with ⟨msg, rfl, hn, hm, rfl, rfl, rfl, hl, rfl⟩ | ⟨v, y, -, hq, -⟩ | ⟨f, -, hq, -⟩
    · right
      have hu := hop msg rfl
      rw [name_eq hu] at hm
      obtain ⟨g, hg⟩ := List.length_eq_one_iff.1 hl
      rw [hg] at hm
      have : msg.author = g := by simpa using hm
      refine ⟨msg, _, rfl, by rw [hg, this], hc', hh, ?_⟩
      rw [if_pos ⟨by simp [hl], by simp [hl]⟩] at hw
      exact hw
    · rw [hc] at hq; cases hq
    · rw [hc] at hq; cases hq

/-! ### C37 -/

/-- **C37** as far as it goes: a step keeps the government free of duplicates unless it enacts the admission of a present member. -/
theorem C37_no_duplicates_partial (e : Env W) (op : Op W) {s : State W} (hr : Reachable s) (hop : Canonical op)
    (hgov : s.gov.Nodup)
    (hadd : ∀ p, (s.current = some p ∨ op = .propose p) → ∀ a, p.kind = .governmentAdd a → text a ∉ s.gov) :
    (op.run e s).gov.Nodup := by
  have heff : ∀ p : Proposal, (∀ a, p.kind = .governmentAdd a → text a ∉ s.gov) → (effect e p.kind s.gov s.world).1.Nodup := by
    intro p hp
    rcases hk : p.kind with a | a | k
    · show (s.gov ++ [text a]).Nodup
      rw [(List.perm_append_singleton _ _).nodup_iff, List.nodup_cons]
      exact ⟨hp a hk, hgov⟩
    · exact hgov.erase _
    · exact hgov
  have hfst : ∀ {x : List Name × W}, ((op.run e s).gov, (op.run e s).world) = x → x.1.Nodup → (op.run e s).gov.Nodup := by
    rintro x rfl h; exact h
  rcases hc : s.current with _ | p
  · rcases C36_no_proposal_no_effect e op hr hc hop with ⟨h, -⟩ | ⟨msg, b, hm, -, -, -, h⟩
    · exact hfst h hgov
    · exact hfst h (heff msg (hadd msg (.inr hm)))
  · rcases C36_open_proposal_partial e op hr hop hgov hc with ⟨-, -, -, -, h⟩ | ⟨-, a, d, b, -, -, -, -, h⟩
    · exact hfst h hgov
    · rcases h with ⟨-, h⟩ | ⟨-, h⟩
      · exact hfst h (heff p (hadd p (.inl hc)))
      · exact hfst h hgov

/-- Once the government contains an account twice nothing is ever enacted again: complete participation is out of reach. -/
theorem C37_duplicate_blocks_forever {s : State W} (hr : Reachable s) (hgov : ¬ s.gov.Nodup) (l : List (Env W × Op W))
    (hl : ∀ x ∈ l, Canonical x.2) : (run s l).gov = s.gov := by
  induction l generalizing s with
  | nil => rfl
  | cons x r ih =>
    have hr' : Reachable (x.2.run x.1 s) := .step x.1 x.2 hr (hl x (by simp))
    suffices hstep : (x.2.run x.1 s).gov = s.gov by
      show (run (x.2.run x.1 s) r).gov = s.gov
      rw [ih hr' (by rw [hstep]; exact hgov) (fun y hy => hl y (by simp [hy])), hstep]
    have hshort : ∀ m : List Name, (∀ n ∈ m, n ∈ s.gov) → m.Nodup → m.length ≠ s.gov.length := by
      intro m h1 h2 h3
      exact hgov (((h2.subperm h1).perm_of_length_le h3.ge).nodup_iff.1 h2)
    rcases outcome x.1 x.2 hr.good with ⟨h, -, -⟩ | ⟨msg, -, hn, hm, hc', ha, hd, hgv, hw, hh, hl⟩ |
      ⟨v, y, q, -, hq, hq', -, -, -, -, hgv, -⟩ | ⟨q, a, d, b, hc', hh, how, hw⟩
    · exact h.gov
    · exact hgv
    · exact hgv
    · rw [if_neg] at hw
      · exact (Prod.ext_iff.1 hw).1
      · rintro ⟨hlen, -⟩
        rcases how with ⟨msg, hx, hn, hm, rfl, rfl, rfl, h1, rfl⟩ | ⟨v, y, hx, hq, -, hm, h1, h2, ha, -⟩ | ⟨f, hx, hq, -, -, rfl, rfl⟩
        · obtain ⟨g, hg⟩ := List.length_eq_one_iff.1 h1
          rw [hg] at hgov; simp at hgov
        · simp only [Prod.ext_iff] at ha
          have hperm := afterVote_perm s.agreed s.disagreed v.parse y
          rw [← ha.1, ← ha.2] at hperm
          refine hshort (a ++ d) ?_ ?_ (by rw [List.length_append]; omega)
          · intro n hn
            rw [hperm.mem_iff, List.mem_cons] at hn
            rcases hn with rfl | hn
            · exact hm
            · exact (hr.ballot.governors n hn).1
          · rw [hperm.nodup_iff, List.nodup_cons]
            refine ⟨fun hh => ?_, hr.ballot.once⟩
            rcases List.mem_append.1 hh with hh | hh
            · exact h1 hh
            · exact h2 hh
        · exact hshort (s.agreed ++ s.disagreed) (fun n hn => (hr.ballot.governors n hn).1) hr.ballot.once
            (by rw [List.length_append]; omega)

/-! ### C38 -/

/-- The answers accepted since the current poll began, in order, kept beside the execution. -/
def accepted (s : State W) (log : List (Name × Bool)) : List (Env W × Op W) → List (Name × Bool)
  | [] => log
  | (e, op) :: r =>
    let log' := match op with
      | .answer n y => if M.succeeds (answer e n y) s then log ++ [(n, y)] else log
      | _ => log
    accepted (op.run e s) (if (op.run e s).poll.isNone then [] else log') r

/-- The log agrees with the store. -/
structure Logged (log : List (Name × Bool)) (s : State W) : Prop where
  once : (log.map Prod.fst).Nodup
  stored : ∀ n y, (n, y) ∈ log ↔ s.answers.get n.key = some y
  yes : s.yes = (log.filter (fun x => x.2)).length % 2 ^ 64
  no : s.no = (log.filter (fun x => !x.2)).length % 2 ^ 64

theorem key_inj {m n : Name} (h : m.key = n.key) : m = n := by
  obtain ⟨a, u⟩ := m
  obtain ⟨b, v⟩ := n
  unfold Name.key at h
  dsimp only at h
  cases u <;> cases v <;> simp at h ⊢ <;> omega

theorem Logged.congr {log : List (Name × Bool)} {s t : State W} (h : Logged log s) (hs : SamePoll s t) : Logged log t :=
  ⟨h.once, by rw [hs.answers]; exact h.stored, by rw [hs.yes]; exact h.yes, by rw [hs.no]; exact h.no⟩

theorem Good.logged_nil {s : State W} (h : Good s) (hp : s.poll = none) : Logged [] s := by
  obtain ⟨h1, h2, h3⟩ := h.poll.idle hp
  exact ⟨by simp, by rw [h3]; simp, by rw [h1]; rfl, by rw [h2]; rfl⟩

theorem runTasks_samePoll (e : Env W) (f : Schedule.Task → Foreign W) (l : List Schedule.Task) {s : State W} (h : Mid e.now s)
    (hp : ∀ t ∈ l, t.handler ≠ pollHook) : SamePoll s (runTasks e f l s) := by
  induction l generalizing s with
  | nil => exact ⟨rfl, rfl, rfl, rfl, rfl⟩
  | cons t ts ih =>
    have hm := runTask_mid e f (t := t) h (fun hh => absurd hh (hp t (by simp)))
    refine SamePoll.trans ?_ (ih hm (fun t' ht' => hp t' (by simp [ht'])))
    unfold runTask
    split
    · rcases hc : s.current with _ | p
      · rw [processSchedule_none e hc]; exact ⟨rfl, rfl, rfl, rfl, rfl⟩
      · obtain ⟨b, u, hb, h1, h2⟩ := processSchedule_ends e h.inv h.vote hc
        rw [h2]; exact h1.poll
    · split
      · next hh => exact absurd hh (hp t (by simp))
      · exact (f t).samePoll s

/-- A block before the poll's end leaves it alone. -/
theorem block_poll_open (e : Env W) (f : Schedule.Task → Foreign W) {s : State W} (h : Good s) {q : Poll} (hq : s.poll = some q)
    (hn : e.now < q.endTime) : SamePoll s (block e f s) := by
  have h1 := runTasks_samePoll e f (dueTasks e.now s.sched) (h.mid e.now) (by
    intro t ht hh
    obtain ⟨c1, c2⟩ := (mem_dueTasks h.inv).1 ht
    rw [(h.poll.busy q hq).2.1 t c2 hh] at c1; omega)
  exact ⟨h1.poll, h1.yes, h1.no, h1.answers, h1.history⟩

/-- The block's tasks with a poll task among them. -/
theorem runTasks_poll_ends (e : Env W) (f : Schedule.Task → Foreign W) (l : List Schedule.Task) {s : State W} (h : Mid e.now s)
    {q : Poll} (hq : s.poll = some q) (hle : q.endTime ≤ e.now) (hl : ∃ t ∈ l, t.handler = pollHook) :
    ∃ d, decision? q.quorum s.yes s.no = some d ∧ (runTasks e f l s).poll = none ∧
      (runTasks e f l s).pollHistory = s.pollHistory.set (q.endTime / 1000000000) ⟨q, s.yes, s.no, d⟩ := by
  induction l generalizing s with
  | nil => simp at hl
  | cons t ts ih =>
    by_cases hv : t.handler = pollHook
    · obtain ⟨d, u, hd, h4, h5⟩ := endPoll_ends hq (h.poll.busy q hq).2.2
      have hu : runTask e f t s = u := by
        unfold runTask
        rw [if_neg (by rw [hv]; decide), if_pos hv, h5]
      have hm : Mid e.now u := hu ▸ runTask_mid e f h (fun _ q' hq' => by rw [hq] at hq'; injection hq' with hq'; subst hq'; exact hle)
      have hstay : ∀ (l : List Schedule.Task) (u : State W), Mid e.now u → u.poll = none →
          (runTasks e f l u).poll = none ∧ (runTasks e f l u).pollHistory = u.pollHistory := by
        intro l
        induction l with
        | nil => exact fun u _ hn => ⟨hn, rfl⟩
        | cons t' ts' ih' =>
          intro u hm hn
          have hm' := runTask_mid e f (t := t') hm (fun _ q' hq' => by rw [hn] at hq'; cases hq')
          have hsame : (runTask e f t' u).poll = none ∧ (runTask e f t' u).pollHistory = u.pollHistory := by
            unfold runTask
            split
            · rcases hc : u.current with _ | p
              · rw [processSchedule_none e hc]; exact ⟨hn, rfl⟩
              · obtain ⟨b, w, hb, h1, h2⟩ := processSchedule_ends e hm.inv hm.vote hc
                rw [h2]; exact ⟨h1.poll.poll.trans hn, h1.poll.history⟩
            · split
              · rw [endPoll_none hn]; exact ⟨hn, rfl⟩
              · exact ⟨hn, rfl⟩
          obtain ⟨g1, g2⟩ := ih' _ hm' hsame.1
          exact ⟨g1, g2.trans hsame.2⟩
      obtain ⟨g1, g2⟩ := hstay ts u hm h4.poll
      refine ⟨d, hd, ?_⟩
      show (runTasks e f ts (runTask e f t s)).poll = none ∧ (runTasks e f ts (runTask e f t s)).pollHistory = _
      rw [hu]
      exact ⟨g1, g2.trans h4.history⟩
    · have h1 : SamePoll s (runTask e f t s) := runTasks_samePoll e f [t] h (by simpa using hv)
      obtain ⟨d, g1, g2, g3⟩ := ih (runTask_mid e f (t := t) h (fun hh => absurd hh hv)) (h1.poll.trans hq) (by
          obtain ⟨x, hx, hx'⟩ := hl
          rcases List.mem_cons.1 hx with rfl | hx
          · exact absurd hx' hv
          · exact ⟨x, hx, hx'⟩)
      rw [h1.yes, h1.no] at g1 g3
      rw [h1.history] at g3
      exact ⟨d, g1, g2, g3⟩

theorem block_poll_end (e : Env W) (f : Schedule.Task → Foreign W) {s : State W} (h : Good s) {q : Poll} (hq : s.poll = some q)
    (hle : q.endTime ≤ e.now) :
    ∃ d, decision? q.quorum s.yes s.no = some d ∧ (block e f s).poll = none ∧
      (block e f s).pollHistory = s.pollHistory.set (q.endTime / 1000000000) ⟨q, s.yes, s.no, d⟩ := by
  obtain ⟨⟨id, hid⟩, -⟩ := h.poll.busy q hq
  exact runTasks_poll_ends e f _ (h.mid e.now) hq hle ⟨_, (mem_dueTasks h.inv).2 ⟨hle, hid⟩, rfl⟩

theorem step_logged (e : Env W) (op : Op W) {s : State W} (hg : Good s) {log : List (Name × Bool)} (hl : Logged log s) :
    Logged (if (op.run e s).poll.isNone then [] else match op with
      | .answer n y => if M.succeeds (answer e n y) s then log ++ [(n, y)] else log
      | _ => log) (op.run e s) := by
  have hg' := step_good e op hg
  by_cases hn : (op.run e s).poll.isNone = true
  · rw [if_pos hn]
    exact hg'.logged_nil (by simpa using hn)
  · rw [if_neg hn]
    cases op with
    | propose msg =>
      have : SamePoll s (M.tx (propose e msg) s) := by
        rcases M.tx_cases (propose e msg) s with ⟨u, h⟩ | ⟨-, h⟩
        · obtain ⟨-, hm, o, ho, h1, h2, h3, h4, h5, h6, h7, h8, h9⟩ := propose_ok hg h
          split at h9
          · obtain ⟨-, ⟨id, hid⟩, -⟩ := ho.vote.busy _ h3
            obtain ⟨hcl, -⟩ := endProposal_ok (s := o) ho.inv (Pending.inRange ho.inv hid) h3 h6 h9
            exact h8.trans hcl.poll
          · rw [h9]; exact h8
        · rw [h]; exact ⟨rfl, rfl, rfl, rfl, rfl⟩
      exact hl.congr this
    | vote v y =>
      have : SamePoll s (M.tx (vote e v.parse y) s) := by
        rcases M.tx_cases (vote e v.parse y) s with ⟨u, h⟩ | ⟨-, h⟩
        · obtain ⟨p, hc, h1, h2, h3, o, ho, h4⟩ := vote_ok h
          obtain ⟨⟨b, hb⟩, ⟨id, hid⟩, hv, -, hau⟩ := hg.vote.busy p hc
          have hso : SamePoll s o := by rw [ho]; exact ⟨rfl, rfl, rfl, rfl, rfl⟩
          split at h4
          · obtain ⟨hcl, -⟩ := endProposal_ok (s := o) (by rw [ho]; exact hg.inv) (Pending.inRange hg.inv hid)
              (by rw [ho]; exact hc) (show o.startBlock = some b by rw [ho]; exact hb) h4
            exact hso.trans hcl.poll
          · rw [h4]; exact hso
        · rw [h]; exact ⟨rfl, rfl, rfl, rfl, rfl⟩
      exact hl.congr this
    | startPoll msg =>
      show Logged log (M.tx (startPoll e msg) s)
      rcases M.tx_cases (startPoll e msg) s with ⟨u, h⟩ | ⟨-, h⟩
      · obtain ⟨-, -, -, sc, -, h4⟩ := startPoll_ok h
        rw [h4]
        exact ⟨hl.once, hl.stored, hl.yes, hl.no⟩
      · rw [h]; exact hl
    | answer n y =>
      show Logged (if M.succeeds (answer e n y) s then log ++ [(n, y)] else log) (M.tx (answer e n y) s)
      rcases M.tx_cases (answer e n y) s with ⟨u, h⟩ | ⟨hf, h⟩
      · obtain ⟨-, h2, h3⟩ := answer_ok h
        have hs : M.succeeds (answer e n y) s = true := by unfold M.succeeds; rw [h]; rfl
        rw [if_pos hs, h3]
        refine ⟨?_, ?_, ?_, ?_⟩
        · rw [List.map_append, List.map_cons, List.map_nil, (List.perm_append_singleton _ _).nodup_iff, List.nodup_cons]
          refine ⟨fun hh => ?_, hl.once⟩
          obtain ⟨⟨m, z⟩, hx, rfl⟩ := List.mem_map.1 hh
          have := (hl.stored m z).1 hx
          simp only at h2
          rw [h2] at this; cases this
        · intro m z
          rw [List.mem_append, List.mem_singleton, KV.get_set]
          by_cases hmn : m.key = n.key
          · have := key_inj hmn
            subst this
            rw [if_pos rfl]
            constructor
            · rintro (hh | hh)
              · rw [(hl.stored m z).1 hh] at h2; cases h2
              · simp only [Prod.mk.injEq, true_and] at hh; rw [hh]
            · intro hh; injection hh with hh; subst hh; exact .inr rfl
          · rw [if_neg hmn, ← hl.stored]
            constructor
            · rintro (hh | hh)
              · exact hh
              · simp only [Prod.mk.injEq] at hh; rw [hh.1] at hmn; exact absurd rfl hmn
            · exact .inl
        · show (if y = true then (s.yes + 1) % 2 ^ 64 else s.yes) = _
          rw [hl.yes]
          cases y <;> simp
        · show (if y = true then s.no else (s.no + 1) % 2 ^ 64) = _
          rw [hl.no]
          cases y <;> simp
      · have hs : ¬ M.succeeds (answer e n y) s = true := by rw [hf]; simp
        rw [if_neg hs, h]; exact hl
    | foreign f => exact hl.congr (f.samePoll s)
    | block f =>
      obtain ⟨q, hq⟩ : ∃ q, (block e f s).poll = some q := by
        cases hh : (block e f s).poll with
        | none => exact absurd (show (block e f s).poll.isNone = true by rw [hh]; rfl) hn
        | some q => exact ⟨q, rfl⟩
      obtain ⟨q0, hq0⟩ : ∃ q0, s.poll = some q0 := by
        have := (runTasks_mid e f _ (hg.mid e.now) hg.due_poll).2 q hq
        exact ⟨q, this.1⟩
      have hlt : e.now < q0.endTime := by
        by_contra hle
        obtain ⟨d, -, h1, -⟩ := block_poll_end e f hg hq0 (by omega)
        rw [hq] at h1; cases h1
      exact hl.congr (block_poll_open e f hg hq0 hlt)

theorem accepted_logged (l : List (Env W × Op W)) {s : State W} (hg : Good s) {log : List (Name × Bool)} (hl : Logged log s) :
    Logged (accepted s log l) (run s l) := by
  induction l generalizing s log with
  | nil => exact hl
  | cons x r ih => exact ih (step_good x.1 x.2 hg) (step_logged x.1 x.2 hg hl)

theorem accepted_length (l : List (Env W × Op W)) (s : State W) (log : List (Name × Bool)) :
    (accepted s log l).length ≤ log.length + l.length := by
  induction l generalizing s log with
  | nil => simp [accepted]
  | cons x r ih =>
    obtain ⟨e, op⟩ := x
    unfold accepted
    refine (ih _ _).trans ?_
    have : (if (op.run e s).poll.isNone then [] else match op with
      | .answer n y => if M.succeeds (answer e n y) s then log ++ [(n, y)] else log
      | _ => log).length ≤ log.length + 1 := by
      split
      · simp
      · split
        · split <;> simp
        · simp
    simp only [List.length_cons]
    omega

theorem accepted_mem (l : List (Env W × Op W)) (s : State W) (log : List (Name × Bool)) {x : Name × Bool}
    (h : x ∈ accepted s log l) : x ∈ log ∨ ∃ e, (e, Op.answer x.1 x.2) ∈ l := by
  induction l generalizing s log with
  | nil => exact .inl h
  | cons z r ih =>
    obtain ⟨e, op⟩ := z
    unfold accepted at h
    rcases ih _ _ h with h | ⟨e', h⟩
    · split at h
      · simp at h
      · split at h
        · split at h
          · rcases List.mem_append.1 h with h | h
            · exact .inl h
            · right
              rw [List.mem_singleton] at h
              subst h
              exact ⟨e, by simp⟩
          · exact .inl h
        · exact .inl h
    · exact .inr ⟨e', by simp [h]⟩

/-- **C38**, tallies, for executions in which respondents write their address in lower case: nobody's answer is accepted twice
and the counters are the numbers of accounts that answered yes and no (as long as there are fewer than 2^64 steps). -/
theorem C38_tallies_partial {gov : List Name} {sched : Schedule.State} (w : W) (hs : Start sched) (l : List (Env W × Op W))
    (hlen : l.length < 2 ^ 64) (hc : ∀ e n y, (e, Op.answer n y) ∈ l → n.upper = false) :
    let s := run (fresh gov sched w) l
    let log := accepted (fresh gov sched w) [] l
    (log.map (fun x => x.1.addr)).Nodup ∧ s.yes = (log.filter (fun x => x.2)).length ∧ s.no = (log.filter (fun x => !x.2)).length ∧
      ∀ n y, (n, y) ∈ log ↔ s.answers.get n.key = some y := by
  intro s log
  have hl : Logged log s := accepted_logged l (fresh_good w hs) ((fresh_good w hs).logged_nil rfl)
  have hle : log.length ≤ l.length := by
    have := accepted_length l (fresh gov sched w) []
    simpa using this
  have hf : ∀ p : Name × Bool → Bool, (log.filter p).length < 2 ^ 64 := fun p =>
    lt_of_le_of_lt ((List.length_filter_le _ _).trans hle) hlen
  refine ⟨?_, ?_, ?_, hl.stored⟩
  · have h1 : (log.map (fun x => x.1.addr)) = (log.map Prod.fst).map Name.addr := by simp
    rw [h1]
    refine hl.once.map_on ?_
    have hup : ∀ n ∈ log.map Prod.fst, n.upper = false := by
      intro n hn
      obtain ⟨⟨m, y⟩, hx, rfl⟩ := List.mem_map.1 hn
      rcases accepted_mem l _ _ hx with h | ⟨e, h⟩
      · simp at h
      · exact hc e m y h
    intro a ha b hb hab
    have h2 := hup a ha
    have h3 := hup b hb
    cases a; cases b; simp_all
  · rw [hl.yes, Nat.mod_eq_of_lt (hf _)]
  · rw [hl.no, Nat.mod_eq_of_lt (hf _)]

/-- What the claim calls the decision of a poll. -/
noncomputable def verdict (q : Option Frac) (yes no : Nat) : Decision := by
  classical exact
  match q with
  | none => .unspecified
  | some q => if 1 ≤ yes ∧ q.toRat ≤ (yes : ℚ) / ((yes + no : Nat) : ℚ) then .positive else .negative

theorem wrap64_small {n : Nat} (h : n < 2 ^ 63) : wrap64 (n : Int) = n := by
  unfold wrap64
  rw [Int.bmod_eq_of_le] <;> omega

theorem decision?_verdict {q : Option Frac} (hq : quorumOk q = true) {y n : Nat} (h : y + n < 2 ^ 63) :
    decision? q y n = some (verdict q y n) := by
  cases q with
  | none => rfl
  | some q =>
    have hd := quorum_denom hq
    unfold decision? verdict
    dsimp only
    by_cases hy : y = 0
    · rw [if_pos hy, if_neg (by omega)]
    · rw [if_neg hy]
      rw [Nat.mod_eq_of_lt (by omega), wrap64_small h, wrap64_small (by omega)]
      obtain ⟨z, h1, h2, -, h4⟩ := Frac.mul?_spec q (Frac.ofInt ((y + n : Nat) : Int)) hd (by simp [Frac.ofInt])
      rw [h1]
      have hg := Frac.gte?_spec (Frac.ofInt (y : Int)) z (by simp [Frac.ofInt]) h2.ne'
      simp only [Option.bind_eq_bind, Option.bind_some, hg]
      have hpos : (0 : ℚ) < ((y + n : Nat) : ℚ) := by
        have : 0 < y + n := by omega
        exact_mod_cast this
      have e1 : (Frac.ofInt ((y + n : Nat) : Int)).toRat = ((y + n : Nat) : ℚ) := by simp [Frac.toRat, Frac.ofInt]
      have e2 : (Frac.ofInt (y : Int)).toRat = (y : ℚ) := by simp [Frac.toRat, Frac.ofInt]
      rw [e1] at h4
      have hiff : (Frac.ofInt (y : Int)).toRat ≥ z.toRat ↔ q.toRat ≤ (y : ℚ) / ((y + n : Nat) : ℚ) := by
        rw [h4, e2, le_div_iff₀ hpos]
      by_cases hv : q.toRat ≤ (y : ℚ) / ((y + n : Nat) : ℚ)
      · rw [decide_eq_true (hiff.2 hv), if_pos rfl, if_pos ⟨by omega, hv⟩]; rfl
      · rw [decide_eq_false (fun hh => hv (hiff.1 hh)), if_neg (by decide), if_neg (fun hh => hv hh.2)]; rfl

/-- **C38**, end of a poll, in every execution with fewer than 2^62 steps: the first block at or after its end closes it, the
history gets the verdict, and counters and answers are cleared; no earlier block touches it. -/
theorem C38_end_of_poll {gov : List Name} {sched : Schedule.State} (w : W) (hs : Start sched) (l : List (Env W × Op W))
    (hlen : l.length < 2 ^ 62) (e : Env W) (f : Schedule.Task → Foreign W) {q : Poll}
    (hq : (run (fresh gov sched w) l).poll = some q) :
    let s := run (fresh gov sched w) l
    let t := (Op.block f).run e s
    (q.endTime ≤ e.now → t.poll = none ∧ t.yes = 0 ∧ t.no = 0 ∧ t.answers = KV.empty ∧
      t.pollHistory = s.pollHistory.set (q.endTime / 1000000000) ⟨q, s.yes, s.no, verdict q.quorum s.yes s.no⟩) ∧
    (e.now < q.endTime → t.poll = some q ∧ t.yes = s.yes ∧ t.no = s.no ∧ t.answers = s.answers ∧ t.pollHistory = s.pollHistory) := by
  intro s t
  have hg : Good s := run_good l (fresh_good w hs)
  have hg' : Good t := step_good e (.block f) hg
  constructor
  · intro hle
    obtain ⟨d, h1, h2, h3⟩ := block_poll_end e f hg hq hle
    have hl : Logged (accepted (fresh gov sched w) [] l) s :=
      accepted_logged l (fresh_good w hs) ((fresh_good w hs).logged_nil rfl)
    have hlen' : (accepted (fresh gov sched w) [] l).length ≤ l.length := by
      have := accepted_length l (fresh gov sched w) []
      simpa using this
    have hy : s.yes ≤ l.length := by
      rw [hl.yes]
      exact (Nat.mod_le _ _).trans ((List.length_filter_le _ _).trans hlen')
    have hn : s.no ≤ l.length := by
      rw [hl.no]
      exact (Nat.mod_le _ _).trans ((List.length_filter_le _ _).trans hlen')
    have hd : d = verdict q.quorum s.yes s.no := by
      have := decision?_verdict (hg.poll.busy q hq).2.2 (y := s.yes) (n := s.no) (by omega)
      rw [this] at h1; injection h1 with h1; exact h1.symm
    subst hd
    obtain ⟨i1, i2, i3⟩ := hg'.poll.idle h2
    exact ⟨h2, i1, i2, i3, h3⟩
  · intro hlt
    have := block_poll_open e f hg hq hlt
    exact ⟨this.poll.trans hq, this.yes, this.no, this.answers, this.history⟩

/-! ### Counterexamples and examples -/

/-- Surroundings for the examples: an hour of 10 units, everybody qualified with status 5 if spelled in lower case. -/
def exampleEnv (now height : Int) : Env Unit where
  now := now
  height := height
  hour := 10
  votingPeriod := 2
  pollPeriod := 3
  enact := fun _ w => (.ok (), w)
  qualified := fun _ _ => some true
  status := fun _ n => if n.upper then none else some 5

def exampleFresh : State Unit := fresh [text 1, text 2] Schedule.State.empty ()

theorem exampleStart : Start Schedule.State.empty :=
  ⟨Schedule.Inv.empty, fun x hx => by obtain ⟨l, hl, -⟩ := hx; simp [Schedule.State.empty] at hl⟩

/-- Governor 1 proposes with the address in upper case and then votes. -/
def upperRun : List (Env Unit × Op Unit) :=
  [(exampleEnv 100 1, .propose ⟨7, ⟨1, true⟩, .governmentRemove 2, 0⟩), (exampleEnv 101 2, .vote (text 1) true)]

/-- C35 fails for an author in upper case: with a third governor the lists contain the same account twice. -/
theorem C35_upper_case_author_votes_twice :
    ((run (fresh [text 1, text 2, text 3] Schedule.State.empty ()) upperRun).agreed.map Name.addr) = [1, 1] := by decide +kernel

/-- C36 fails likewise: one of two governors alone removes the other, who never voted. -/
theorem C36_upper_case_author_enacts_alone :
    (run exampleFresh upperRun).gov = [text 1] ∧
    (run exampleFresh upperRun).history.get 2 = some ⟨⟨7, ⟨1, true⟩, .governmentRemove 2, 120⟩, [text 1, text 2], [⟨1, true⟩, ⟨1, false⟩], [], 1, 2⟩ ∧
    ¬ Everyone [text 1, text 2] [⟨1, true⟩, ⟨1, false⟩] [] := by
  refine ⟨by decide +kernel, by decide +kernel, ?_⟩
  intro h
  have := h (text 2) (by simp)
  simp [text] at this

/-- C36 fails: the record of a proposal is overwritten by the next one ending in the same block. -/
theorem C36_history_overwritten :
    let l : List (Env Unit × Op Unit) := [(exampleEnv 100 1, .propose ⟨7, text 1, .other 0, 0⟩), (exampleEnv 100 1, .propose ⟨8, text 1, .other 1, 0⟩)]
    (run (fresh [text 1] Schedule.State.empty ()) (l.take 1)).history.values.map (fun r => r.proposal.title) = [7] ∧
    (run (fresh [text 1] Schedule.State.empty ()) l).history.values.map (fun r => r.proposal.title) = [8] := by decide +kernel

/-- C37 fails: governors admit an account that already is one. -/
def duplicateRun : List (Env Unit × Op Unit) :=
  [(exampleEnv 100 1, .propose ⟨7, text 1, .governmentAdd 2, 0⟩), (exampleEnv 101 2, .vote (text 2) true)]

theorem duplicateRun_canonical : ∀ x ∈ duplicateRun, Canonical x.2 := by
  intro x hx msg h
  simp only [duplicateRun, List.mem_cons, List.not_mem_nil, or_false] at hx
  rcases hx with rfl | rfl
  · simp only [Op.propose.injEq] at h; subst h; rfl
  · simp at h

theorem C37_member_admitted_twice : (run exampleFresh duplicateRun).gov = [text 1, text 2, text 2] := by decide +kernel

/-- … after which the government is stuck for good. -/
theorem C37_example_stuck (l : List (Env Unit × Op Unit)) (hl : ∀ x ∈ l, Canonical x.2) :
    (run (run exampleFresh duplicateRun) l).gov = [text 1, text 2, text 2] := by
  have hr : Reachable (run exampleFresh duplicateRun) := (Reachable.start () exampleStart).run _ duplicateRun_canonical
  rw [C37_duplicate_blocks_forever hr (by rw [C37_member_admitted_twice]; decide) l hl, C37_member_admitted_twice]

def pollRun (second : Name) : List (Env Unit × Op Unit) :=
  [(exampleEnv 100 1, .startPoll ⟨7, text 1, some ⟨1, 2⟩, .canValidate, 0, 0⟩), (exampleEnv 101 2, .answer (text 4) true),
   (exampleEnv 102 2, .answer second true), (exampleEnv 103 2, .answer (text 5) false)]

/-- C38 fails for upper case: account 4 answers twice and both count. -/
theorem C38_upper_case_answers_twice :
    (run exampleFresh (pollRun ⟨4, true⟩)).yes = 2 ∧
    (accepted exampleFresh [] (pollRun ⟨4, true⟩)).map (fun x => x.1.addr) = [4, 4, 5] := by decide +kernel

/-- The hypotheses of C38 on a run; the refused second answer is not counted. -/
example : (pollRun (text 4)).length < 2 ^ 62 ∧ (run exampleFresh (pollRun (text 4))).yes = 1 ∧
    (run exampleFresh (pollRun (text 4))).no = 1 ∧
    (run exampleFresh (pollRun (text 4))).poll = some ⟨7, text 1, some ⟨1, 2⟩, .canValidate, 100, 130⟩ := by decide +kernel

/-- Its end: one half is enough for the quorum 1/2. -/
example : ((Op.block (fun _ => ⟨id, []⟩)).run (exampleEnv 131 9) (run exampleFresh (pollRun (text 4)))).pollHistory.values.map (fun x => x.decision)
    = [.positive] := by decide +kernel

/-- The hypotheses of C35, C36: an open proposal in a reachable state. -/
def openState : State Unit := run (fresh [text 1, text 2, text 3] Schedule.State.empty ())
  [(exampleEnv 100 1, .propose ⟨7, text 1, .governmentRemove 3, 0⟩), (exampleEnv 101 2, .vote (text 2) true)]

theorem openState_reachable : Reachable openState := by
  refine (Reachable.start () exampleStart).run _ ?_
  intro x hx msg h
  simp only [List.mem_cons, List.not_mem_nil, or_false] at hx
  rcases hx with rfl | rfl
  · simp only [Op.propose.injEq] at h; subst h; rfl
  · simp at h

example : openState.current = some ⟨7, text 1, .governmentRemove 3, 120⟩ ∧ openState.gov.Nodup ∧ openState.agreed = [text 1, text 2] := by
  decide +kernel

/-- The third governor is against: two of three are enough. -/
example : ((Op.vote (text 3) false).run (exampleEnv 102 3) openState).gov = [text 1, text 2] := by decide +kernel

/-- Nobody votes any more: the deadline. -/
example : ((Op.block (fun _ => ⟨id, []⟩)).run (exampleEnv 120 9) openState).current = none ∧
    ((Op.block (fun _ => ⟨id, []⟩)).run (exampleEnv 120 9) openState).gov = [text 1, text 2, text 3] := by decide +kernel

end Verif.Voting
