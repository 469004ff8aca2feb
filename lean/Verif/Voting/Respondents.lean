import Verif.Voting.Props

/-! Property C68: exactly who may start polls and who may answer them. -/
namespace Verif.Voting
open Verif.Util

variable {W : Type}

/-! ### Specification -/

/-- The account meets the requirement of a poll: there is none, or it qualifies as a validator, or its status is known and not below the
one named. -/
inductive Entitled (e : Env W) (w : W) (n : Name) : Requirement → Prop
  | anybody : Entitled e w n .none
  | validator : e.qualified w n.addr = some true → Entitled e w n .canValidate
  | status {m st : Int} : e.status w n = some st → m ≤ st → Entitled e w n (.minStatus m)

/-- A quorum, if there is one, is a number from 0 to 1. -/
def Sensible (q : Option Frac) : Prop := ∀ x, q = some x → 0 ≤ x.toRat ∧ x.toRat ≤ 1

/-! ### Proofs -/

theorem allowed?_iff {e : Env W} {w : W} {n : Name} {r : Requirement} : allowed? e w n r = some true ↔ Entitled e w n r := by
  constructor
  · intro h
    cases r with
    | none => exact .anybody
    | canValidate => exact .validator h
    | minStatus m =>
      unfold allowed? at h
      cases hs : e.status w n with
      | none => rw [hs] at h; cases h
      | some st =>
        rw [hs] at h
        exact .status hs (of_decide_eq_true (Option.some.inj h))
  · intro h
    cases h with
    | anybody => rfl
    | validator h => exact h
    | status h hle =>
      unfold allowed?
      rw [h]
      exact congrArg some (decide_eq_true hle)

theorem quorumOk_iff {q : Option Frac} (h : ∀ x, q = some x → x.denom ≠ 0) : quorumOk q = true ↔ Sensible q := by
  unfold Sensible
  cases q with
  | none => simp [quorumOk]
  | some x =>
    have hx := h x rfl
    have e1 := Frac.isNegative_iff x hx
    have e2 := Frac.gt?_spec x (Frac.ofInt 1) hx (by simp [Frac.ofInt])
    have e3 : (Frac.ofInt 1).toRat = 1 := by simp [Frac.toRat, Frac.ofInt]
    rw [e3] at e2
    unfold quorumOk
    simp only [e2, Bool.and_eq_true, Bool.not_eq_true', Option.some.injEq, beq_iff_eq, decide_eq_false_iff_not, forall_eq', not_lt]
    rw [← Bool.not_eq_true, e1, not_lt]

/-! ### The property -/

/-- An answer is accepted exactly if a poll is open, the respondent meets its requirement, and no answer is stored under that text; then it
is stored and counted, and nothing else changes. -/
theorem C68_answer (e : Env W) (n : Name) (y : Bool) (s : State W) :
    ((answer e n y s).1 = .ok () ↔ ∃ q, s.poll = some q ∧ Entitled e s.world n q.requirement ∧ s.answers.get n.key = none) ∧
    ((answer e n y s).1 = .ok () → (Op.answer n y).run e s = { s with
      answers := s.answers.set n.key y
      yes := if y then (s.yes + 1) % 18446744073709551616 else s.yes
      no := if y then s.no else (s.no + 1) % 18446744073709551616 }) ∧
    ((answer e n y s).1 ≠ .ok () → (Op.answer n y).run e s = s) := by
  have main : ∀ t, answer e n y s = (.ok (), t) ↔ (∃ q, s.poll = some q ∧ Entitled e s.world n q.requirement ∧ s.answers.get n.key = none) ∧
      t = { s with
        answers := s.answers.set n.key y
        yes := if y then (s.yes + 1) % 18446744073709551616 else s.yes
        no := if y then s.no else (s.no + 1) % 18446744073709551616 } := by
    intro t
    unfold answer
    rw [M.get_bind_ok]
    cases hp : s.poll with
    | none => simp [M.err]
    | some q =>
      dsimp only
      rw [M.orPanic_bind_ok]
      constructor
      · rintro ⟨ok, hok, h⟩
        rw [M.errIf_bind_ok, M.errIf_bind_ok] at h
        obtain ⟨h1, h2, h⟩ := h
        have h1 : ok = true := by simpa using h1
        subst h1
        rw [M.modify_apply] at h
        simp only [Prod.mk.injEq, true_and] at h
        refine ⟨⟨q, rfl, allowed?_iff.1 hok, ?_⟩, by rw [← h, hp]; rfl⟩
        unfold KV.has at h2
        simpa using h2
      · rintro ⟨⟨q', hq, h1, h2⟩, rfl⟩
        obtain rfl := Option.some.inj hq
        refine ⟨true, allowed?_iff.2 h1, ?_⟩
        rw [M.errIf_bind_ok, M.errIf_bind_ok]
        refine ⟨rfl, ?_, ?_⟩
        · unfold KV.has; rw [h2]; rfl
        · rw [M.modify_apply, hp]; rfl
  have split : (answer e n y s).1 = .ok () ↔ ∃ t, answer e n y s = (.ok (), t) :=
    ⟨fun h => ⟨_, Prod.ext h rfl⟩, fun ⟨t, h⟩ => by rw [h]⟩
  refine ⟨?_, fun h => ?_, fun h => ?_⟩
  · rw [split]
    exact ⟨fun ⟨t, h⟩ => ((main t).1 h).1, fun h => ⟨_, (main _).2 ⟨h, rfl⟩⟩⟩
  · obtain ⟨t, h⟩ := split.1 h
    show M.tx (answer e n y) s = _
    rw [← ((main t).1 h).2]
    unfold M.tx
    rw [h]
  · show M.tx (answer e n y) s = s
    rcases M.tx_cases (answer e n y) s with ⟨u, hu⟩ | ⟨-, hu⟩
    · exact absurd (by rw [hu]) h
    · exact hu

/-- A poll is started exactly if its quorum makes sense, no other one is open, the author is in the government, and it ends before the year
2263; then it ends after the period that is set. -/
theorem C68_start (e : Env W) (msg : Poll) (s : State W) (hq : ∀ x, msg.quorum = some x → x.denom ≠ 0) :
    ((startPoll e msg s).1 = .ok () ↔ Sensible msg.quorum ∧ s.poll = none ∧ msg.author ∈ s.gov ∧
      0 ≤ e.now + e.pollPeriod * e.hour ∧ e.now + e.pollPeriod * e.hour < 9246182400000000000) ∧
    ((startPoll e msg s).1 = .ok () → ((Op.startPoll msg).run e s).poll =
      some { msg with startTime := e.now, endTime := e.now + e.pollPeriod * e.hour }) := by
  have inr : ∀ x : Int, Schedule.inRange x = true ↔ 0 ≤ x ∧ x < 9246182400000000000 := fun x => by
    unfold Schedule.inRange Schedule.timeEnd
    exact decide_eq_true_iff
  constructor
  · constructor
    · intro h
      obtain ⟨h1, h2, h3, sc, h4, -⟩ := startPoll_ok (t := (startPoll e msg s).2) (u := ()) (Prod.ext h rfl)
      refine ⟨(quorumOk_iff hq).1 h1, h2, h3, (inr _).1 ?_⟩
      have h4 : Schedule.schedule? s.sched (e.now + e.pollPeriod * e.hour) pollHook [] = some sc := h4
      unfold Schedule.schedule? at h4
      split at h4
      · assumption
      · cases h4
    · rintro ⟨h1, h2, h3, h4⟩
      have h4 := (inr _).2 h4
      obtain ⟨sc, hsc⟩ : ∃ sc, (Schedule.Req.schedule (e.now + e.pollPeriod * e.hour) pollHook []).exec? s.sched = some sc := ⟨_, if_pos h4⟩
      have h5 : onSched (.schedule (e.now + e.pollPeriod * e.hour) pollHook []) s = (.ok (), { s with sched := sc }) := by
        unfold onSched; rw [hsc]
      have ex : ∃ t, startPoll e msg s = (.ok (), t) := by
        unfold startPoll
        rw [(quorumOk_iff hq).2 h1]
        refine ⟨{ s with sched := sc, poll := some { msg with startTime := e.now, endTime := e.now + e.pollPeriod * e.hour } }, ?_⟩
        rw [M.errIf_bind_ok, M.get_bind_ok, M.errIf_bind_ok, M.errIf_bind_ok]
        exact ⟨rfl, by rw [h2]; rfl, by simpa using h3, M.bind_ok_iff.2 ⟨(), _, h5, M.modify_apply _ _⟩⟩
      obtain ⟨t, h⟩ := ex
      rw [h]
  · intro h
    obtain ⟨-, -, -, sc, -, h5⟩ := startPoll_ok (t := (startPoll e msg s).2) (u := ()) (Prod.ext h rfl)
    show (M.tx (startPoll e msg) s).poll = _
    have : M.tx (startPoll e msg) s = (startPoll e msg s).2 := by
      unfold M.tx
      rcases hr : startPoll e msg s with ⟨r, t⟩
      rw [hr] at h
      cases h
      rfl
    rw [this, h5]

/-! ### Examples -/

/-- An open poll for accounts of status 5 or more: account 3, which has exactly this status, answers; in upper case its status is unknown. -/
def fifth : State Unit := run exampleFresh [(exampleEnv 100 1, .startPoll ⟨7, text 1, some ⟨1, 2⟩, .minStatus 5, 0, 0⟩)]

example : fifth.poll = some ⟨7, text 1, some ⟨1, 2⟩, .minStatus 5, 100, 130⟩ ∧
    ((Op.answer (text 3) true).run (exampleEnv 101 2) fifth).yes = 1 ∧
    ((Op.answer ⟨3, true⟩ true).run (exampleEnv 101 2) fifth).yes = 0 := by decide +kernel

example : Entitled (exampleEnv 101 2) () (text 3) (.minStatus 5) := .status (st := 5) rfl (by decide)

end Verif.Voting
