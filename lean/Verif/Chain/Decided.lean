import Verif.Chain.EnactCases
import Verif.Voting.Props

/-!
Property C104: what voting decides over, from the proposal to its effect.

Here the abstract rest of the chain of `Verif.Voting` is the world of `Verif.Enact`, and the abstract effect of an accepted proposal is the switch
of `EndProposal` (/repo/x/voting/keeper/keeper.go:227-390) modelled there.  The number of a proposal stands for a type and arguments by an
arbitrary table `D`.

Simplification: of other modules only this is used, that they do not write the parameters modelled in `Enact.World` other than the rate of the
coin (/repo/x/profile/keeper/msg_server.go:189-190, not one of the values a proposal sets), nor the planned upgrade unless it is done.  In
/repo parameters are written besides at the start of the chain (the genesis.go of each module) and by upgrades (/repo/app/upgrade.go).
-/
namespace Verif.Enact.Decided
open Verif.Util
open Verif.Voting (State Op Name text run fresh Start Canonical)

/-! ### Model -/

/-- What a number of a proposal stands for. -/
abbrev Table := Nat → Kind × Args

/-- A moment and what happens then. -/
structure Step where
  surroundings : Env
  moment : Voting.Env World
  op : Op World

/-- Voting with the effects of keeper.go:227-390. -/
def Step.wired (D : Table) (x : Step) : Voting.Env World × Op World :=
  ({ x.moment with enact := fun n => enact x.surroundings (D n).1 (D n).2 }, x.op)

/-- The chain from its start. -/
def play (D : Table) (s : State World) (l : List Step) : State World := run s (l.map (Step.wired D))

/-! ### Specification -/

/-- An operation of other modules that leaves the values and lists alone, except that the planned upgrade may be cleared (when it is done). -/
def Keeps (f : World → World) : Prop :=
  ∀ w, (∀ i, read (f w) i = read w i ∨ i = .plan ∧ read (f w) i = .plan none) ∧ ∀ r, rollOf (f w) r = rollOf w r

def Quiet : Op World → Prop
  | .foreign f => Keeps f.world
  | .block f => ∀ t, Keeps (f t).world
  | _ => True

/-- The account with the address `n` says yes: it makes the proposal or votes for it. -/
def Says (n : Name) : Op World → Prop
  | .propose msg => msg.author = n
  | .vote v y => y = true ∧ text v.addr = n
  | _ => False

/-- From the first of the steps `during` to the last a proposal of the kind `q` is open, and none before. -/
def Open (D : Table) (s : State World) (before during : List Step) (q : Voting.Kind) : Prop :=
  (play D s before).current = none ∧ (∃ x r msg, during = x :: r ∧ x.op = .propose msg ∧ msg.kind = q) ∧
    ∀ m r, during = m ++ r → m ≠ [] → r ≠ [] → ∃ p, (play D s (before ++ m)).current = some p ∧ p.kind = q

/-- In the execution `l` a proposal of the kind `q` was made and, while it was open, so many different members of the government said yes to it
that they are at least two thirds of it. -/
def Resolved (D : Table) (s : State World) (l : List Step) (q : Voting.Kind) : Prop :=
  ∃ before during after, l = before ++ during ++ after ∧ Open D s before during q ∧
    ∃ yes : List Name, yes.Nodup ∧ (∀ n ∈ yes, n ∈ (play D s before).gov ∧ ∃ y ∈ during, Says n y.op) ∧
      2 * (play D s before).gov.length ≤ 3 * yes.length

/-- The proposal asks for this value. -/
def Wants (D : Table) (i : Item) (v : Value) : Voting.Kind → Prop
  | .other n => asks (D n).1 (D n).2 = some (i, v)
  | _ => False

/-- The proposal asks to put this account on this list. -/
def Puts (D : Table) (r : Roll) (a : Addr) : Voting.Kind → Prop
  | .governmentAdd b => r = .government ∧ a = b
  | .governmentRemove _ => False
  | .other n => adds (D n).1 (D n).2 = some (r, a)

/-- The proposal asks to strike this account off this list. -/
def Drops (D : Table) (r : Roll) (a : Addr) : Voting.Kind → Prop
  | .governmentAdd _ => False
  | .governmentRemove b => r = .government ∧ a = b
  | .other n => strikes (D n).1 (D n).2 = some (r, a)

/-- The list of accounts; the government is kept by the module of voting. -/
def listed (s : State World) : Roll → List Name
  | .government => s.gov
  | r => rollOf s.world r

/-! ### An enactment -/

theorem price?_some {x : Args} {n : Nat} : x.price? = some n ↔ x = .price n := by cases x <;> simp [Args.price?]
theorem address?_some {x : Args} {a : Addr} : x.address? = some a ↔ x = .address (some a) := by cases x <;> simp [Args.address?]
theorem minAmount?_some {x : Args} {n : Int} : x.minAmount? = some n ↔ x = .minAmount n := by cases x <;> simp [Args.minAmount?]
theorem count?_some {x : Args} {n : Nat} : x.count? = some n ↔ x = .count n := by cases x <;> simp [Args.count?]
theorem criteria?_some {x : Args} {c : Criteria} : x.criteria? = some c ↔ x = .criteria (some c) := by cases x <;> simp [Args.criteria?]
theorem votingPower?_some {x : Args} {d : Noding.Distribution} : x.votingPower? = some d ↔ x = .votingPower d := by
  cases x <;> simp [Args.votingPower?]
theorem portion?_some {x : Args} {q : Frac} : x.portion? = some q ↔ x = .portion (some q) := by cases x <;> simp [Args.portion?]
theorem table?_some {x : Args} {t : List Delegating.Row} : x.table? = some t ↔ x = .table t := by cases x <;> simp [Args.table?]
theorem revoke?_some {x : Args} {r : Delegating.RevokeParams} : x.revoke? = some r ↔ x = .revoke (some r) := by cases x <;> simp [Args.revoke?]
theorem split?_some {x : Args} {q : Frac × Frac} (h : x.split? = some q) : ∃ l, x = .portions (some q.1 :: some q.2 :: l) := by
  unfold Args.split? at h
  split at h
  · cases h; exact ⟨_, rfl⟩
  · cases h
theorem plan?_some {x : Args} {p : Plan} (h : x.plan? = some p) : ∃ n, x = .upgrade p.name n (some p.time) := by
  unfold Args.plan? at h
  split at h
  · cases h; exact ⟨_, rfl⟩
  · cases h

/-- Whatever is put into force asks for something. -/
theorem enact_asks {e : Env} {k : Kind} {x : Args} {w w' : World} (h : enact e k x w = (.ok (), w')) :
    (∃ y, asks k x = some y) ∨ (∃ y, adds k x = some y) ∨ (∃ y, strikes k x = some y) ∨ k = .amnesty ∨
      ((k = .staffAdd ∨ k = .staffRemove) ∧ ∃ a, x = .address (some a)) := by
  cases k
  case split =>
    simp only [enact, M.get_bind_ok, M.orPanic_bind_ok] at h
    obtain ⟨a, ha, -⟩ := h
    obtain ⟨l, rfl⟩ := split?_some ha
    exact .inl ⟨_, rfl⟩
  case upgrade =>
    simp only [enact, M.get_bind_ok, M.orPanic_bind_ok] at h
    obtain ⟨a, ha, -⟩ := h
    obtain ⟨l, rfl⟩ := plan?_some ha
    exact .inl ⟨_, rfl⟩
  case cancelUpgrade => exact .inl ⟨_, rfl⟩
  case amnesty => simp
  case deprecated => cases h
  case unknown => cases h
  all_goals simp only [enact, M.get_bind_ok, M.orPanic_bind_ok, price?_some, address?_some, minAmount?_some, count?_some, criteria?_some,
    votingPower?_some, portion?_some, table?_some, revoke?_some] at h
  all_goals obtain ⟨a, rfl, -⟩ := h
  all_goals simp [asks, adds, strikes]

/-- Striking off, without a condition on repetitions. -/
theorem enact_strikes {e : Env} {k : Kind} {x : Args} {w w' : World} {r : Roll} {a : Addr} (ha : strikes k x = some (r, a))
    (h : enact e k x w = (.ok (), w')) :
    (∀ n ∈ rollOf w' r, n ∈ rollOf w r) ∧ (∀ n ∈ rollOf w r, n ∈ rollOf w' r ∨ n = text a) ∧ (∀ q, q ≠ r → rollOf w' q = rollOf w q) ∧
      ∀ j, read w' j = read w j := by
  have key : ∀ {l m : List Addr}, (m = l ∨ (a :: m).Perm l) →
      (∀ n ∈ m.map text, n ∈ l.map text) ∧ ∀ n ∈ l.map text, n ∈ m.map text ∨ n = text a := by
    intro l m hm
    rcases hm with rfl | hm
    · exact ⟨fun _ h => h, fun _ h => .inl h⟩
    · simp only [List.mem_map, ← hm.mem_iff, List.mem_cons]
      constructor
      · rintro n ⟨b, hb, rfl⟩; exact ⟨b, .inr hb, rfl⟩
      · rintro n ⟨b, rfl | hb, rfl⟩
        · exact .inr rfl
        · exact .inl ⟨b, hb, rfl⟩
  have hrem : ∀ l : List Addr, removeFrom l a = l ∨ (a :: removeFrom l a).Perm l := by
    intro l
    unfold removeFrom
    split
    · rename_i hc; exact .inr (Earning.swapRemove_perm (List.contains_iff_mem.1 hc))
    · exact .inl rfl
  unfold strikes at ha
  split at ha <;> (try cases ha)
  case h_6 =>
    simp only [enact, M.get_bind_ok, M.orPanic_bind_ok, Args.address?, Option.some.injEq, exists_eq_left'] at h
    by_cases hc : w.signers.contains a = true
    · rw [if_pos hc, setSigners_ok] at h
      obtain ⟨-, rfl⟩ := h
      have hk := key (.inr (Earning.swapRemove_perm (List.contains_iff_mem.1 hc)))
      refine ⟨hk.1, hk.2, fun q hq => ?_, fun j => ?_⟩
      · cases q <;> first | rfl | exact absurd rfl hq
      · cases j <;> rfl
    · rw [if_neg hc, M.pure_ok] at h
      obtain ⟨-, rfl⟩ := h
      exact ⟨fun _ h => h, fun _ h => .inl h, fun _ _ => rfl, fun _ => rfl⟩
  all_goals enact_simp at h
  all_goals obtain ⟨-, rfl⟩ := h
  all_goals refine ⟨?_, ?_, fun q hq => ?_, fun j => ?_⟩
  all_goals (first | (cases j <;> rfl) | (cases q <;> first | rfl | exact absurd rfl hq) | exact (key (hrem _)).1 | exact (key (hrem _)).2 | skip)
  · intro n hn
    exact List.mem_of_mem_erase hn
  · intro n hn
    by_cases h : n = text a
    · exact .inr h
    · exact .inl ((List.mem_erase_of_ne h).2 hn)

/-- An enactment changes a value only to what is asked for, and lists only by the account asked about. -/
structure Obeys (k : Kind) (x : Args) (w w' : World) : Prop where
  value : ∀ i, read w' i = read w i ∨ asks k x = some (i, read w' i)
  joins : ∀ r, ∀ n ∈ rollOf w' r, n ∈ rollOf w r ∨ ∃ a, n = text a ∧ adds k x = some (r, a)
  leaves : ∀ r, ∀ n ∈ rollOf w r, n ∈ rollOf w' r ∨ ∃ a, n = text a ∧ strikes k x = some (r, a)

theorem Obeys.rfl' (k : Kind) (x : Args) (w : World) : Obeys k x w w := ⟨fun _ => .inl rfl, fun _ _ h => .inl h, fun _ _ h => .inl h⟩

theorem Obeys.of_eq {k : Kind} {x : Args} {w w' : World} (h1 : ∀ j, read w' j = read w j) (h2 : ∀ r, rollOf w' r = rollOf w r) : Obeys k x w w' :=
  ⟨fun i => .inl (h1 i), fun r _ h => .inl (h2 r ▸ h), fun r _ h => .inl ((h2 r).symm ▸ h)⟩

theorem enact_obeys (e : Env) (k : Kind) (x : Args) (w : World) : Obeys k x w (enact e k x w).2 := by
  by_cases h : (enact e k x w).1 = .ok ()
  swap
  · rw [C76_all_or_nothing e k x w h]; exact .rfl' k x w
  have h' : enact e k x w = (.ok (), (enact e k x w).2) := by rw [← h]
  generalize (enact e k x w).2 = w' at h'
  clear h
  rcases enact_asks h' with ⟨⟨j, v⟩, ha⟩ | ⟨⟨r, a⟩, ha⟩ | ⟨⟨r, a⟩, ha⟩ | rfl | ⟨rfl | rfl, a, rfl⟩
  · obtain ⟨h1, h2, h3, -, -⟩ := C76_sets ha h'
    refine ⟨fun i => ?_, fun r _ h => .inl (h3 r ▸ h), fun r _ h => .inl ((h3 r).symm ▸ h)⟩
    by_cases hi : i = j
    · subst hi; right; rw [ha, h1]
    · exact .inl (h2 i hi)
  · obtain ⟨h1, h2, h3, -, -⟩ := C76_adds ha h'
    refine ⟨fun i => .inl (h3 i), fun q n hn => ?_, fun q n hn => .inl ?_⟩ <;> by_cases hq : q = r
    · subst hq
      rcases (h1 n).1 hn with h | h
      · exact .inr ⟨a, h, ha⟩
      · exact .inl h
    · exact .inl (h2 q hq ▸ hn)
    · subst hq; exact (h1 n).2 (.inr hn)
    · rw [h2 q hq]; exact hn
  · obtain ⟨h1, h2, h3, h4⟩ := enact_strikes ha h'
    refine ⟨fun i => .inl (h4 i), fun q n hn => .inl ?_, fun q n hn => ?_⟩ <;> by_cases hq : q = r
    · subst hq; exact h1 n hn
    · rw [← h3 q hq]; exact hn
    · subst hq
      rcases h2 n hn with h | h
      · exact .inl h
      · exact .inr ⟨a, h, ha⟩
    · exact .inl (by rw [h3 q hq]; exact hn)
  · obtain ⟨v, hv, -, -, h1, h2, -⟩ := C76_amnesty e x w
    rw [h'] at hv; cases hv
    exact .of_eq h1 h2
  · obtain ⟨v, hv, -, -, -, h1, h2, -⟩ := C76_staff_add e a w
    rw [h'] at hv; cases hv
    exact .of_eq h1 h2
  · obtain ⟨v, hv, -, -, h1, h2, -⟩ := C76_staff_remove e a w
    rw [h'] at hv; cases hv
    exact .of_eq h1 h2

/-! ### Other modules -/

theorem foreignWorld_keeps {f : Schedule.Task → Voting.Foreign World} (hf : ∀ t, Keeps (f t).world) (l : List Schedule.Task) :
    Keeps (Voting.foreignWorld f l) := by
  induction l with
  | nil => exact fun w => ⟨fun _ => .inl rfl, fun _ => rfl⟩
  | cons t r ih =>
    intro w
    show (∀ i, read (Voting.foreignWorld f r _) i = read w i ∨ i = .plan ∧ read (Voting.foreignWorld f r _) i = .plan none) ∧ _
    have h := ih (if t.handler = Voting.voteHook ∨ t.handler = Voting.pollHook then w else (f t).world w)
    refine ⟨fun i => ?_, fun q => (h.2 q).trans ?_⟩
    · rcases h.1 i with hi | hi
      · rw [hi]
        split
        · exact .inl rfl
        · exact (hf t w).1 i
      · exact .inr hi
    · split
      · rfl
      · exact (hf t w).2 q

theorem outside_keeps (e : Voting.Env World) (s : State World) {op : Op World} (h : Quiet op) :
    (∀ i, read (Voting.outside e s op) i = read s.world i ∨ i = .plan ∧ read (Voting.outside e s op) i = .plan none) ∧ ∀ r, rollOf (Voting.outside e s op) r = rollOf s.world r := by
  cases op with
  | foreign f => exact h s.world
  | block f => exact foreignWorld_keeps h _ s.world
  | _ => exact ⟨fun _ => .inl rfl, fun _ => rfl⟩

/-! ### The proposal followed through the execution -/

theorem play_snoc (D : Table) (s : State World) (l : List Step) (x : Step) :
    play D s (l ++ [x]) = x.op.run (x.wired D).1 (play D s l) := by
  unfold play
  rw [List.map_append]
  generalize l.map (Step.wired D) = m
  induction m generalizing s with
  | nil => rfl
  | cons y r ih => exact ih _

/-- The proposal that is open was made within the execution, and those on the list of the ayes said yes since. -/
def Track (D : Table) (s : State World) (l : List Step) (p : Voting.Proposal) (ayes : List Name) (gov : List Name) : Prop :=
  ∃ before during, l = before ++ during ∧ Open D s before during p.kind ∧
    gov = (play D s before).gov ∧ ∀ n ∈ ayes, ∃ y ∈ during, Says n y.op

theorem Open.snoc {D : Table} {s : State World} {b d : List Step} {p : Voting.Proposal} (h : Open D s b d p.kind)
    (hc : (play D s (b ++ d)).current = some p) (x : Step) : Open D s b (d ++ [x]) p.kind := by
  obtain ⟨h0, ⟨y, r, msg, rfl, h1, h2⟩, h3⟩ := h
  refine ⟨h0, ⟨y, r ++ [x], msg, rfl, h1, h2⟩, fun m r' he hm hr => ?_⟩
  obtain ⟨z, r'', rfl⟩ : ∃ z r'', r' = r'' ++ [z] := ⟨r'.getLast hr, r'.dropLast, (List.dropLast_append_getLast hr).symm⟩
  rw [← List.append_assoc] at he
  have he' := (List.append_inj' he rfl).1
  by_cases hr'' : r'' = []
  · subst hr''; rw [List.append_nil] at he'; rw [← he']; exact ⟨p, hc, rfl⟩
  · exact h3 m r'' he' hm hr''

theorem Track.snoc {D : Table} {s : State World} {l : List Step} {p : Voting.Proposal} {a g : List Name} (h : Track D s l p a g)
    (hc : (play D s l).current = some p) (x : Step) : Track D s (l ++ [x]) p a g := by
  obtain ⟨b, d, rfl, ho, h3, h4⟩ := h
  refine ⟨b, d ++ [x], by simp, ho.snoc hc x, h3, fun n hn => ?_⟩
  obtain ⟨z, hz, hs⟩ := h4 n hn
  exact ⟨z, List.mem_append_left _ hz, hs⟩

theorem Track.cast {D : Table} {s : State World} {l : List Step} {p : Voting.Proposal} {a d g a' d' : List Name} (h : Track D s l p a g)
    (hc : (play D s l).current = some p) {x : Step} {v : Name} {y : Bool} (hx : x.op = .vote v y) (ha : (a', d') = Voting.afterVote a d v.parse y) : Track D s (l ++ [x]) p a' g := by
  obtain ⟨b, m, rfl, ho, h3, h4⟩ := h
  refine ⟨b, m ++ [x], by simp, ho.snoc hc x, h3, fun n hn => ?_⟩
  have : n ∈ a ∨ (y = true ∧ n = text v.parse) := by
    unfold Voting.afterVote at ha
    cases y
    · simp only [Bool.false_eq_true, if_false, Prod.mk.injEq] at ha
      rw [ha.1] at hn; exact .inl hn
    · simp only [if_true, Prod.mk.injEq] at ha
      rw [ha.1, List.mem_append, List.mem_singleton] at hn
      exact hn.imp id fun h => ⟨rfl, h⟩
  rcases this with h | ⟨hy, h⟩
  · obtain ⟨z, hz, hs⟩ := h4 n h
    exact ⟨z, List.mem_append_left _ hz, hs⟩
  · refine ⟨x, by simp, ?_⟩
    rw [hx]; exact ⟨hy, h.symm⟩

theorem Track.opens {D : Table} {s : State World} {l : List Step} {p : Voting.Proposal} {x : Step} {msg : Voting.Proposal} (hc : (play D s l).current = none)
    (hx : x.op = .propose msg) (hk : msg.kind = p.kind) : Track D s (l ++ [x]) p [msg.author] (play D s l).gov := by
  refine ⟨l, [x], rfl, ⟨hc, ⟨x, [], msg, rfl, hx, hk⟩, fun m r he hm hr => ?_⟩, rfl, fun n hn => ⟨x, by simp, ?_⟩⟩
  · have := congrArg List.length he
    have h1 := List.length_pos_iff.2 hm
    have h2 := List.length_pos_iff.2 hr
    simp at this; omega
  rw [hx]; exact (List.mem_singleton.1 hn).symm

theorem Track.resolved {D : Table} {s : State World} {l : List Step} {p : Voting.Proposal} {a g : List Name} (h : Track D s l p a g)
    (hn : a.Nodup) (hg : ∀ n ∈ a, n ∈ g) (hl : 2 * g.length ≤ 3 * a.length) : Resolved D s l p.kind := by
  obtain ⟨b, m, rfl, h1, rfl, h4⟩ := h
  exact ⟨b, m, [], by simp, h1, a, hn, fun n hn => ⟨hg n hn, h4 n hn⟩, hl⟩

theorem Resolved.snoc {D : Table} {s : State World} {l : List Step} {q : Voting.Kind} (h : Resolved D s l q) (x : Step) :
    Resolved D s (l ++ [x]) q := by
  obtain ⟨b, m, c, rfl, h1, h2⟩ := h
  exact ⟨b, m, c ++ [x], by simp, h1, h2⟩

theorem play_reachable {gov : List Name} {sched : Schedule.State} {w : World} (hs : Start sched) (D : Table) {l : List Step}
    (hl : ∀ x ∈ l, Canonical x.op) : Voting.Reachable (play D (fresh gov sched w) l) := by
  refine (Voting.Reachable.start w hs).run _ ?_
  intro y hy
  obtain ⟨x, hx, rfl⟩ := List.mem_map.1 hy
  exact hl x hx

/-- The step of the induction: the proposal is followed, and an effect comes from an accepted one. -/
theorem step_track {D : Table} {gov : List Name} {sched : Schedule.State} {w : World} (hs : Start sched) {l : List Step} {x : Step}
    (hl : ∀ y ∈ l ++ [x], Canonical y.op) (ih : ∀ p, (play D (fresh gov sched w) l).current = some p →
      Track D (fresh gov sched w) l p (play D (fresh gov sched w) l).agreed (play D (fresh gov sched w) l).gov) :
    let s := play D (fresh gov sched w) l
    let t := play D (fresh gov sched w) (l ++ [x])
    (∀ p, t.current = some p → Track D (fresh gov sched w) (l ++ [x]) p t.agreed t.gov) ∧
    ((t.gov, t.world) = (s.gov, Voting.outside (x.wired D).1 s x.op) ∨
      ∃ q, Resolved D (fresh gov sched w) (l ++ [x]) q ∧ (t.gov, t.world) = Voting.effect (x.wired D).1 q s.gov s.world) := by
  intro s t
  have hr : Voting.Reachable s := play_reachable hs D fun y hy => hl y (by simp [hy])
  have hop : Canonical x.op := hl x (by simp)
  have ht : t = x.op.run (x.wired D).1 s := play_snoc D _ l x
  rw [ht]
  have hb := hr.ballot
  rcases Voting.outcome (x.wired D).1 x.op hr.good with ⟨h, hw, -⟩ | ⟨msg, hx, hn, hm, hc, ha, hd, hg, hw, hh, -⟩ |
      ⟨v, y, p, hx, hc, hc', hm, h1, h2, ha, hg, hw, -⟩ | ⟨p, a, d, b, hc, hh, how, hw⟩
  · refine ⟨fun p hp => ?_, .inl (Prod.ext h.gov hw)⟩
    rw [h.agreed, h.gov]
    exact (ih p (h.current.symm.trans hp)).snoc (h.current.symm.trans hp) x
  · refine ⟨fun p hp => ?_, .inl (Prod.ext hg (hw.trans (by rw [hx]; rfl)))⟩
    rw [ha, hg]
    rw [hc] at hp; cases hp
    exact Track.opens hn hx rfl
  · refine ⟨fun q hq => ?_, .inl (Prod.ext hg (hw.trans (by rw [hx]; rfl)))⟩
    rw [hc'] at hq; cases hq
    rw [hg]
    exact (ih p hc).cast hc hx ha
  · refine ⟨fun q hq => (by rw [hc] at hq; cases hq), ?_⟩
    split at hw
    · rename_i hacc
      refine .inr ⟨p.kind, ?_, hw⟩
      rcases how with ⟨msg, hx, hn, hm, rfl, rfl, rfl, h1, rfl⟩ | ⟨v, y, hx, hq, -, hm, h1, h2, ha, -⟩ | ⟨f, hx, hq, -, -, rfl, rfl⟩
      · refine (Track.opens (p := { msg with endTime := _ }) hn hx rfl).resolved (by simp) ?_ hacc.2
        intro n hn'
        rw [List.mem_singleton.1 hn', ← Voting.name_eq (hop msg hx)]; exact hm
      · have hperm := Voting.afterVote_perm s.agreed s.disagreed v.parse y
        have hnd : (a ++ d).Nodup := by
          rw [← ha] at hperm
          rw [hperm.nodup_iff, List.nodup_cons]
          exact ⟨fun hh => (List.mem_append.1 hh).elim h1 h2, hb.once⟩
        refine ((ih p hq).cast hq hx ha).resolved hnd.of_append_left ?_ hacc.2
        intro n hn
        have : n ∈ text v.parse :: (s.agreed ++ s.disagreed) := by
          rw [← hperm.mem_iff, ← ha]; exact List.mem_append_left _ hn
        rcases List.mem_cons.1 this with rfl | h
        · exact hm
        · exact (hb.governors n h).1
      · exact ((ih p hq).snoc hq x).resolved hb.once.of_append_left (fun n hn => (hb.governors n (List.mem_append_left _ hn)).1) hacc.2
    · exact .inl hw

/-! ### The theorem -/

/-- **C104**, for executions in which proposals carry their author's address in lower case.  Whatever has happened since the start of the chain:
a value other than the one of the start (or no planned upgrade) is what a proposal asked for that two thirds of the government of its time said yes to, member by member
and each once; an account on a list that was not on it at the start was put on it by such a proposal; and an account on the list at the start
and not any more was struck off by one. -/
theorem C104_decided_partial (D : Table) (gov : List Name) {sched : Schedule.State} (hs : Start sched) (w : World) (l : List Step)
    (hl : ∀ x ∈ l, Canonical x.op) (hq : ∀ x ∈ l, Quiet x.op) :
    let s := fresh gov sched w
    let t := play D s l
    (∀ i, read t.world i = read w i ∨ (i = .plan ∧ read t.world i = .plan none) ∨ ∃ q, Resolved D s l q ∧ Wants D i (read t.world i) q) ∧
    (∀ r, ∀ n ∈ listed t r, n ∈ listed s r ∨ ∃ q a, n = text a ∧ Resolved D s l q ∧ Puts D r a q) ∧
    (∀ r, ∀ n ∈ listed s r, n ∈ listed t r ∨ ∃ q a, n = text a ∧ Resolved D s l q ∧ Drops D r a q) := by
  intro s t
  suffices key : (∀ p, t.current = some p → Track D s l p t.agreed t.gov) ∧
      (∀ i, read t.world i = read w i ∨ (i = .plan ∧ read t.world i = .plan none) ∨ ∃ q, Resolved D s l q ∧ Wants D i (read t.world i) q) ∧
      (∀ r, ∀ n ∈ listed t r, n ∈ listed s r ∨ ∃ q a, n = text a ∧ Resolved D s l q ∧ Puts D r a q) ∧
      (∀ r, ∀ n ∈ listed s r, n ∈ listed t r ∨ ∃ q a, n = text a ∧ Resolved D s l q ∧ Drops D r a q) from key.2
  subst t
  induction l using List.reverseRecOn with
  | nil => exact ⟨fun p hp => (by cases hp), fun _ => .inl rfl, fun _ _ h => .inl h, fun _ _ h => .inl h⟩
  | append_singleton l x ih =>
    obtain ⟨i1, i2, i3, i4⟩ := ih (fun y hy => hl y (by simp [hy])) (fun y hy => hq y (by simp [hy]))
    obtain ⟨h1, h2⟩ := step_track (D := D) (gov := gov) (w := w) hs hl i1
    refine ⟨h1, ?_⟩
    suffices step : (∀ i, read (play D s (l ++ [x])).world i = read (play D s l).world i ∨ (i = .plan ∧ read (play D s (l ++ [x])).world i = .plan none) ∨
          ∃ q, Resolved D s (l ++ [x]) q ∧ Wants D i (read (play D s (l ++ [x])).world i) q) ∧
        (∀ r, ∀ n ∈ listed (play D s (l ++ [x])) r, n ∈ listed (play D s l) r ∨
          ∃ q a, n = text a ∧ Resolved D s (l ++ [x]) q ∧ Puts D r a q) ∧
        (∀ r, ∀ n ∈ listed (play D s l) r, n ∈ listed (play D s (l ++ [x])) r ∨
          ∃ q a, n = text a ∧ Resolved D s (l ++ [x]) q ∧ Drops D r a q) by
      refine ⟨fun i => ?_, fun r n hn => ?_, fun r n hn => ?_⟩
      · rcases step.1 i with h | h
        · rw [h]
          exact (i2 i).imp id fun h => h.imp id fun ⟨q, h, h'⟩ => ⟨q, h.snoc x, h'⟩
        · exact .inr h
      · rcases step.2.1 r n hn with h | h
        · exact (i3 r n h).imp id fun ⟨q, a, h, h', h''⟩ => ⟨q, a, h, h'.snoc x, h''⟩
        · exact .inr h
      · rcases i4 r n hn with h | ⟨q, a, h, h', h''⟩
        · exact step.2.2 r n h
        · exact .inr ⟨q, a, h, h'.snoc x, h''⟩
    generalize play D s (l ++ [x]) = t at h2 ⊢
    generalize hs' : play D s l = u at h2 ⊢
    rcases h2 with h | ⟨q, hres, h⟩
    · obtain ⟨hg, hw⟩ := Prod.ext_iff.1 h
      dsimp only at hg hw
      have hk := outside_keeps (x.wired D).1 u (hq x (by simp))
      rw [← hw] at hk
      have hlist : ∀ r, listed t r = listed u r := by
        intro r
        have hr := hk.2 r
        cases r <;> first | exact hg | exact hr
      exact ⟨fun i => (hk.1 i).imp id .inl, fun r n hn => .inl (hlist r ▸ hn), fun r n hn => .inl ((hlist r).symm ▸ hn)⟩
    · obtain ⟨hg, hw⟩ := Prod.ext_iff.1 h
      cases q with
      | governmentAdd b =>
        change t.gov = u.gov ++ [text b] at hg
        change t.world = u.world at hw
        refine ⟨fun i => .inl (by rw [hw]), fun r n hn => ?_, fun r n hn => .inl ?_⟩ <;> cases r <;> simp only [listed, hg, hw] at hn ⊢
        case refine_1.government =>
          rcases List.mem_append.1 hn with hn | hn
          · exact .inl hn
          · exact .inr ⟨_, b, List.mem_singleton.1 hn, hres, rfl, rfl⟩
        case refine_2.government => exact List.mem_append_left _ hn
        all_goals first | exact .inl hn | exact hn
      | governmentRemove b =>
        change t.gov = u.gov.erase (text b) at hg
        change t.world = u.world at hw
        refine ⟨fun i => .inl (by rw [hw]), fun r n hn => .inl ?_, fun r n hn => ?_⟩ <;> cases r <;> simp only [listed, hg, hw] at hn ⊢
        case refine_1.government => exact List.mem_of_mem_erase hn
        case refine_2.government =>
          by_cases hb : n = text b
          · exact .inr ⟨_, b, hb, hres, rfl, rfl⟩
          · exact .inl ((List.mem_erase_of_ne hb).2 hn)
        all_goals first | exact .inl hn | exact hn
      | other m =>
        change t.gov = u.gov at hg
        change t.world = (enact x.surroundings (D m).1 (D m).2 u.world).2 at hw
        have ho := enact_obeys x.surroundings (D m).1 (D m).2 u.world
        rw [← hw] at ho
        refine ⟨fun i => (ho.value i).imp id fun h => .inr ⟨_, hres, h⟩, fun r n hn => ?_, fun r n hn => ?_⟩
        · by_cases hr : r = .government
          · subst hr; exact .inl (show n ∈ u.gov from hg ▸ hn)
          · have e1 : listed t r = rollOf t.world r := by cases r <;> first | rfl | exact absurd rfl hr
            have e2 : listed u r = rollOf u.world r := by cases r <;> first | rfl | exact absurd rfl hr
            rw [e1] at hn; rw [e2]
            exact (ho.joins r n hn).imp id fun ⟨a, h, h'⟩ => ⟨_, a, h, hres, h'⟩
        · by_cases hr : r = .government
          · subst hr; exact .inl (show n ∈ t.gov from hg.symm ▸ hn)
          · have e1 : listed t r = rollOf t.world r := by cases r <;> first | rfl | exact absurd rfl hr
            have e2 : listed u r = rollOf u.world r := by cases r <;> first | rfl | exact absurd rfl hr
            rw [e2] at hn; rw [e1]
            exact (ho.leaves r n hn).imp id fun ⟨a, h, h'⟩ => ⟨_, a, h, hres, h'⟩

/-! ### Cases -/

/-- Two proposals: a minimum amount to send, and a new account creator. -/
def exampleTable : Table
  | 0 => (.minSend, .minAmount 77)
  | _ => (.creatorAdd, .address (some 8))

def exampleMoment (now height : Int) : Voting.Env World where
  now := now
  height := height
  hour := 10
  votingPeriod := 2
  pollPeriod := 3
  enact := fun _ w => (.ok (), w)
  qualified := fun _ _ => some true
  status := fun _ _ => some 5

def moment (now height : Int) (op : Op World) : Step := ⟨env, exampleMoment now height, op⟩

def exampleBegin : State World := fresh [text 1, text 2, text 3] Schedule.State.empty world

/-- The second governor is against the amount, which is accepted all the same; the creator is refused; the third governor is removed. -/
def exampleSteps : List Step :=
  [moment 100 1 (.propose ⟨7, text 1, .other 0, 0⟩), moment 101 2 (.vote (text 2) false), moment 102 3 (.vote (text 3) true),
   moment 103 4 (.propose ⟨8, text 1, .other 1, 0⟩), moment 104 5 (.vote (text 2) false), moment 105 6 (.vote (text 3) false),
   moment 106 7 (.propose ⟨9, text 2, .governmentRemove 3, 0⟩), moment 107 8 (.vote (text 1) true), moment 108 9 (.vote (text 3) false),
   moment 109 9 (.block fun _ => ⟨id, []⟩), moment 110 9 (.foreign ⟨fun w => { w with profile := { w.profile with tokenRate := ⟨2, 1⟩ } }, []⟩)]

/-- `C104_decided_partial`: the conditions are met, a value and a list differ from the start, another list does not. -/
example :
    Start exampleBegin.sched ∧ (∀ x ∈ exampleSteps, Canonical x.op) ∧ (∀ x ∈ exampleSteps, Quiet x.op) ∧
    read exampleBegin.world .minSend = .num 1000 ∧ read (play exampleTable exampleBegin exampleSteps).world .minSend = .num 77 ∧
    listed (play exampleTable exampleBegin exampleSteps) .government = [text 1, text 2] ∧
    listed (play exampleTable exampleBegin exampleSteps) .creators = [text 1] := by
  refine ⟨Voting.exampleStart, ?_, ?_, by decide +kernel, by decide +kernel, by decide +kernel, by decide +kernel⟩
  · intro x hx msg hm
    simp only [exampleSteps, List.mem_cons, List.not_mem_nil, or_false] at hx
    rcases hx with rfl | rfl | rfl | rfl | rfl | rfl | rfl | rfl | rfl | rfl | rfl <;> cases hm <;> rfl
  · intro x hx
    simp only [exampleSteps, List.mem_cons, List.not_mem_nil, or_false] at hx
    rcases hx with rfl | rfl | rfl | rfl | rfl | rfl | rfl | rfl | rfl | rfl | rfl
    all_goals first | trivial | exact fun _ _ => ⟨fun _ => .inl rfl, fun _ => rfl⟩ | skip
    exact fun w => ⟨fun i => .inl (by cases i <;> rfl), fun r => by cases r <;> rfl⟩

/-- One governor of three, who writes their address in capitals in the proposal and then votes for it, with the second against it and the third
silent. -/
def capitals : List Step :=
  [moment 100 1 (.propose ⟨7, ⟨1, true⟩, .other 0, 0⟩), moment 101 2 (.vote (text 1) true), moment 102 3 (.vote (text 2) false)]

theorem says_capitals {n : Name} {x : Step} (hx : x ∈ capitals) (h : Says n x.op) : n.addr = 1 := by
  simp only [capitals, List.mem_cons, List.not_mem_nil, or_false] at hx
  rcases hx with rfl | rfl | rfl
  · exact (congrArg Name.addr (show (⟨1, true⟩ : Name) = n from h)).symm
  · exact (congrArg Name.addr h.2).symm
  · exact absurd h.1 (by decide)

/-- Without the condition on the authors the claim fails: the value has changed though a single account of three said yes. -/
theorem C104_capitals_violation :
    read (play exampleTable exampleBegin capitals).world .minSend = .num 77 ∧ read exampleBegin.world .minSend = .num 1000 ∧
    (∀ x ∈ capitals, Quiet x.op) ∧ ∀ q, ¬ Resolved exampleTable exampleBegin capitals q := by
  refine ⟨by decide +kernel, by decide +kernel, ?_, ?_⟩
  · intro x hx
    simp only [capitals, List.mem_cons, List.not_mem_nil, or_false] at hx
    rcases hx with rfl | rfl | rfl <;> trivial
  · rintro q ⟨b, d, c, he, -, yes, hn, hy, hl⟩
    have hone : ∀ n ∈ yes, n = text 1 := by
      intro n hn
      obtain ⟨hg, y, hyd, hs⟩ := hy n hn
      have h1 := says_capitals (by rw [he]; simp [hyd]) hs
      have hb : ∀ k, ∀ m ∈ (play exampleTable exampleBegin (capitals.take k)).gov, m.upper = false := by
        have : ∀ k < 4, ∀ m ∈ (play exampleTable exampleBegin (capitals.take k)).gov, m.upper = false := by decide +kernel
        intro k
        by_cases hk : k < 4
        · exact this k hk
        · rw [List.take_of_length_le (by simp [capitals]; omega)]; exact this 3 (by decide)
      have := hb b.length n (by rw [he, List.append_assoc, List.take_left]; exact hg)
      cases n; simp_all [text]
    have hle : yes.length ≤ 1 := by
      have hp := (hn.subperm (l₂ := [text 1]) (fun n h => by simp [hone n h])).length_le
      simpa using hp
    have hg : ∀ k, (play exampleTable exampleBegin (capitals.take k)).gov.length = 3 := by
      have : ∀ k < 4, (play exampleTable exampleBegin (capitals.take k)).gov.length = 3 := by decide +kernel
      intro k
      by_cases hk : k < 4
      · exact this k hk
      · rw [List.take_of_length_le (by simp [capitals]; omega)]; exact this 3 (by decide)
    have := hg b.length
    rw [he, List.append_assoc, List.take_left] at this
    omega

end Verif.Enact.Decided
