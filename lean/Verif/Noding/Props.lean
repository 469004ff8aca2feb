import Verif.Noding.Select
import Mathlib.Data.List.Sort

/-! Properties C28–C34: the validator set, jail, ban, criteria, the lottery queue. -/
namespace Verif.Noding
open Verif.Util

/-! ### A concrete environment for the examples -/

/-- The comparison of keeper/keeper.go:397-402, made reflexive. -/
def before (x y : Addr × Info) : Prop := y.2.score < x.2.score ∨ (y.2.score = x.2.score ∧ y.2.okBlocks ≤ x.2.okBlocks)

instance : DecidableRel before := fun x y => by unfold before; infer_instance

/-- One possible behaviour of the sorting routine. -/
def sortBefore (l : List (Addr × Info)) : List (Addr × Info) := l.insertionSort before

theorem sortBefore_ok : SortOk sortBefore := by
  have ht : Std.Total before := ⟨fun x y => by unfold before; omega⟩
  have hr : IsTrans _ before := ⟨fun x y z h1 h2 => by unfold before at *; omega⟩
  exact ⟨fun l => List.perm_insertionSort _ l, fun l => List.pairwise_insertionSort before l⟩

/-- Everybody has the given network stake, status and own delegation. -/
def Ex.env (height : Int) (stake : Int := 5000) (status : Nat := 5) (self : Int := 500) : Env :=
  { height, stake := fun _ => some stake, status := fun _ => some status, self := fun _ => self, log := fun x => x.tdiv 1000, sort := sortBefore }

/-- Three slices, lucky power 5. -/
def Ex.distr : Distribution := ⟨[⟨⟨1, 2⟩, 15⟩, ⟨⟨3, 10⟩, 10⟩, ⟨⟨1, 5⟩, 7⟩], 5⟩

def Ex.params (max lottery : Nat) : Params :=
  { maxValidators := max, jailAfter := 2, unjailAfter := 10, lotteryValidators := lottery, minStatus := 3, minSelf := 100, minTotal := 1000,
    votingPower := Ex.distr }

/-- An empty store. -/
def Ex.start (max lottery : Nat) : State := ⟨KV.empty, KV.empty, KV.empty, KV.empty, Ex.params max lottery⟩

theorem Ex.start_ok (max lottery : Nat) (h : 0 < max) : Start (Ex.start max lottery) := by
  refine ⟨?_, rfl, ?_, ?_⟩
  · show (Ex.params max lottery).validate? = some true
    have hd : Ex.distr.validate? = some true := by decide +kernel
    simp only [Params.validate?, Ex.params, hd]
    rw [if_neg (by omega)]
    simp
  · intro a i h; change KV.empty.get a = some i at h; rw [KV.get_empty] at h; cases h
  · intro a i h; change KV.empty.get a = some i at h; rw [KV.get_empty] at h; cases h

/-! ### C30 -/

/-- C30: for every accepted distribution, every limit and every list of scores powers are assigned without a failure and are
positive; the first `max` positions get the powers of slices that start at the first and move by at most one at each position, a
move happening exactly when the score differs from the previous one and the position is beyond the share of the slices so far;
the positions from `max` on get the lucky power. -/
theorem C30 {d : Distribution} (h : d.validate? = some true) {max : Nat} (hm : 0 < max) (scores : List Int) :
    ∃ (ps : List Int) (g : Gen) (slice : Nat → Nat), assign? max d {} scores = some (ps, g) ∧ ps.length = scores.length ∧ (∀ p ∈ ps, 0 < p) ∧
      slice 0 = 0 ∧ (∀ i, slice i < d.slices.length) ∧ (∀ i, slice (i + 1) = slice i ∨ slice (i + 1) = slice i + 1) ∧
      (∀ i, i < scores.length → ps[i]? = if i < max then (d.slices[slice i]?).map Slice.power else some d.luckyPower) ∧
      (∀ i, i + 1 < scores.length → i + 1 < max → (slice (i + 1) = slice i ↔ scores[i + 1]? = scores[i]? ∨
        ((i + 2 : ℕ) : ℚ) / (max : ℚ) ≤ ((d.slices.take (slice i + 1)).map fun x => (x.part.num : ℚ) / (x.part.denom : ℚ)).sum)) := by
  have hd := DistrOk.of_validate h
  cases scores with
  | nil =>
    exact ⟨[], {}, fun _ => 0, rfl, rfl, by simp, rfl, fun _ => List.length_pos_of_ne_nil hd.nonempty, fun _ => Or.inl rfl,
      fun i hi => by simp at hi, fun i hi => by simp at hi⟩
  | cons x l =>
    obtain ⟨p, g1, h1, h2, h3, h4, h5, h6⟩ := next?_first hd hm x
    obtain ⟨ps, g, sl, q1, -, -, q2, q3, q4, q5, q6, q7⟩ := assign?_later hd (max := max) l h2
    have hass : assign? max d {} (x :: l) = some (p :: ps, g) := by simp [assign?, h1, q1]
    refine ⟨p :: ps, g, sl, hass, by simp [q2], assign?_pos hd hass, by rw [q3, h5], q4, q5, ?_, ?_⟩
    · rintro (_ | i) hi
      · rw [List.getElem?_cons_zero, if_pos hm, q3, h5, h6]
      · rw [List.getElem?_cons_succ, q6 i (by simpa using hi), h3]
        rw [Nat.add_comm 1 i]
    · intro i hi hmx
      have := q7 i (by simpa using hi) (by omega)
      rw [h3, h4] at this
      have e : 1 + i + 1 = i + 2 := by omega
      rw [e] at this
      rw [List.getElem?_cons_succ]
      exact this

/-- Four top positions and a lucky one: slices 0, 0 (its share covers half), 1 (beyond), 1 (same score), lucky. -/
example : Ex.distr.validate? = some true ∧ (assign? 4 Ex.distr {} [9, 8, 7, 7, 1]).map Prod.fst = some [15, 15, 10, 10, 5] := by decide +kernel

/-- A distribution whose parts do not add up to one is refused. -/
example : (Distribution.validate? ⟨[⟨⟨1, 2⟩, 15⟩], 5⟩) = some false := by decide +kernel

/-! ### C28 -/

/-- An account is chosen, with this key and this power. -/
def Chosen (t : State) (a : Addr) (k : PubKey) (p : Int) : Prop :=
  (validatorState t a = .top ∨ validatorState t a = .lucky) ∧ ∃ i, t.records.get a = some i ∧ i.pubKey = k ∧ i.lastPower = p

theorem chosen_iff {e : Env} {s t : State} {top rest : List Row} (S : Selection e s t top rest) {a : Addr} {k : PubKey} {p : Int} :
    Chosen t a k p ↔ ∃ i, t.records.get a = some i ∧ i.pubKey = k ∧ i.lastPower = p ∧ p ≠ 0 := by
  constructor
  · rintro ⟨h | h, i, hi, h1, h2⟩
    · obtain ⟨j, hj, -, h3, -⟩ := state_top.1 h
      rw [hi] at hj; cases hj
      exact ⟨i, hi, h1, h2, h2 ▸ h3⟩
    · obtain ⟨j, hj, -, h3, -⟩ := state_lucky.1 h
      rw [hi] at hj; cases hj
      exact ⟨i, hi, h1, h2, h2 ▸ h3⟩
  · rintro ⟨i, hi, h1, h2, h3⟩
    obtain ⟨x, hx, rfl, rfl⟩ := S.of_record hi (Or.inr (h2 ▸ h3))
    have hsome : x.power.isSome = true := by
      cases hxp : x.power with
      | none => exfalso; apply h3; rw [← h2]; show x.power.getD 0 = 0; rw [hxp]; rfl
      | some p => rfl
    refine ⟨?_, _, hi, h1, h2⟩
    rcases List.mem_append.1 hx with hx | hx
    · exact Or.inl (S.top_iff.2 (List.mem_map_of_mem hx))
    · exact Or.inr (S.lucky_iff.2 ⟨x, hx, rfl, hsome⟩)

/-- C28 for executions in which every key is used by one account only (see `C28_key_passed_on` and `C28_chosen_but_absent` for
what happens otherwise).  Start from any store without powers and numbers and an engine without validators and let any operations
follow: no selection fails and the engine accepts every list of updates; after every block end its validator set consists of
exactly the chosen validators (as told by the query `GetValidatorState`) with their keys and powers.  The powers are those the
generator of C30 assigns to the chosen ones in an order of falling scores. -/
theorem C28_partial {owner : PubKey → Addr} {s : State} (hs : Start s)
    (hown : ∀ a i, s.records.get a = some i → i.pubKey ≠ 0 → owner i.pubKey = a) {l : List (Env × Op)} (hsort : ∀ x ∈ l, SortOk x.1.sort)
    (hk : KeysOwned owner l) :
    (∃ E, chain l s KV.empty = some (runs l s, E)) ∧
    ∀ l' e, l = l' ++ [(e, .gather)] → ∃ E, chain l s KV.empty = some (runs l s, E) ∧
      (∀ k p, E.get k = some p ↔ ∃ a, Chosen (runs l s) a k p) ∧
      ∃ order : List Addr, order.Nodup ∧ (∀ a, a ∈ order ↔ ∃ k p, Chosen (runs l s) a k p) ∧
        (∃ scores ps : List Int, scores.Pairwise (· ≥ ·) ∧ order.map (fun a => ((runs l s).records.get a).map Info.score) = scores.map some ∧
          order.map (fun a => ((runs l s).records.get a).map Info.lastPower) = ps.map some ∧
          ∃ g, assign? (runs l s).params.maxValidators (runs l s).params.votingPower {} scores = some (ps, g)) := by
  have h0 : Synced owner s KV.empty := by
    refine ⟨hs.good.clean, fun a i hi h => absurd (hs.fresh a i hi).2.1 h, hown, hs.on, hs.params, ?_⟩
    intro k p
    rw [KV.get_empty]
    constructor
    · intro h; cases h
    · rintro ⟨hk, i, hi, h, -⟩; exact absurd (h.symm.trans (hs.fresh _ i hi).2.1) hk
  obtain ⟨E, hE, hS⟩ := h0.chain hsort hk
  refine ⟨⟨E, hE⟩, ?_⟩
  rintro l' e rfl
  refine ⟨E, hE, ?_⟩
  have hg' : Good (runs l' s) := hs.good.runs (fun x hx => hsort x (List.mem_append_left _ hx))
  have hse : SortOk e.sort := hsort (e, .gather) (by simp)
  obtain ⟨t, u, ht⟩ := hg'.total hse
  have hrun : runs (l' ++ [(e, .gather)]) s = t := by
    rw [runs_append]
    show ((gather e (runs l' s)).map Prod.fst).getD _ = t
    rw [ht]; rfl
  rw [hrun] at hS ⊢
  obtain ⟨-, top, rest, mid, O, S⟩ := hg'.gather hse ht
  have hlast : ∀ a j, t.records.get a = some j → j.lastPower ≠ 0 → j.lastPubKey = j.pubKey := by
    intro a j hj hp
    obtain ⟨x, hx, rfl, rfl⟩ := S.of_record hj (Or.inr hp)
    have : x.power.isSome = true := by
      cases hxp : x.power with
      | none => exfalso; apply hp; show x.power.getD 0 = 0; rw [hxp]; rfl
      | some p => rfl
    rw [(settle_inj_fields ..).2.2.2, if_pos this]; rfl
  refine ⟨?_, ?_⟩
  · intro k p
    rw [hS.engine]
    constructor
    · rintro ⟨hk0, i, hi, h1, h2⟩
      have hp : i.lastPower ≠ 0 := fun h => hk0 (h1.symm.trans ((hS.clean _ i hi).1 h))
      exact ⟨owner k, (chosen_iff S).2 ⟨i, hi, (hlast _ i hi hp).symm.trans h1, h2, h2 ▸ hp⟩⟩
    · rintro ⟨a, hc⟩
      obtain ⟨i, hi, h1, h2, h3⟩ := (chosen_iff S).1 hc
      have hl := hlast a i hi (h2 ▸ h3)
      have hk0 : k ≠ 0 := by
        intro h
        have : i.lastPubKey = 0 := by rw [hl, h1, h]
        exact h3 (h2 ▸ (hS.clean a i hi).2 this)
      have hoa : owner k = a := by
        have := hS.key a i hi (by rw [h1]; exact hk0)
        rw [h1] at this; exact this
      exact ⟨hk0, i, by rw [hoa]; exact hi, hl.trans h1, h2⟩
  · let sel := (top ++ rest).filter fun x => x.power.isSome
    have hsel : ∀ x ∈ sel, x ∈ top ++ rest ∧ x.power.isSome = true := fun x hx => List.mem_filter.1 hx
    obtain ⟨g, hgen⟩ := S.powers
    refine ⟨sel.map Row.acc, (List.filter_sublist.map _).nodup S.nodup, ?_, sel.map (fun x => x.info.score),
      (top ++ rest).filterMap Row.power, ?_, ?_, ?_, g, ?_⟩
    · intro a
      constructor
      · intro ha
        obtain ⟨x, hx, rfl⟩ := List.mem_map.1 ha
        obtain ⟨h1, h2⟩ := hsel x hx
        obtain ⟨p, hp⟩ := Option.isSome_iff_exists.1 h2
        refine ⟨x.info.pubKey, p, (chosen_iff S).2 ⟨_, S.row x h1, rfl, ?_, (S.pos x h1 p hp).ne'⟩⟩
        show x.power.getD 0 = p
        rw [hp]; rfl
      · rintro ⟨k, p, hc⟩
        obtain ⟨i, hi, -, h2, h3⟩ := (chosen_iff S).1 hc
        obtain ⟨x, hx, rfl, rfl⟩ := S.of_record hi (Or.inr (h2 ▸ h3))
        refine List.mem_map_of_mem (List.mem_filter.2 ⟨hx, ?_⟩)
        cases hxp : x.power with
        | none => exfalso; apply h3; rw [← h2]; show x.power.getD 0 = 0; rw [hxp]; rfl
        | some p => rfl
    · rw [List.pairwise_map]
      refine (List.Pairwise.sublist List.filter_sublist S.sorted).imp ?_
      intro x y h; omega
    · rw [List.map_map, List.map_map]
      apply List.map_congr_left
      intro x hx
      simp only [Function.comp]
      rw [S.row x (hsel x hx).1]; rfl
    · have : (top ++ rest).filterMap Row.power = sel.map fun x => x.power.getD 0 := by
        simp only [sel]
        generalize top ++ rest = rows
        induction rows with
        | nil => rfl
        | cons x r ih =>
          cases hp : x.power with
          | none => simp [hp, ih]
          | some p => simp [hp, ih]
      rw [this, List.map_map, List.map_map]
      apply List.map_congr_left
      intro x hx
      simp only [Function.comp]
      rw [S.row x (hsel x hx).1]; rfl
    · rw [O.params]; exact hgen

/-- Two validators switch on, one is jailed for missing blocks and drops out, the other goes on. -/
def Ex.life : List (Env × Op) :=
  [(Ex.env 1, .switchOn 1 71), (Ex.env 1, .switchOn 2 72), (Ex.env 1, .gather), (Ex.env 2, .stroke 1), (Ex.env 2, .gather),
    (Ex.env 3, .stroke 1), (Ex.env 3, .gather)]

example : KeysOwned (fun k => k - 70) Ex.life ∧
    ((chain Ex.life (Ex.start 3 0) KV.empty).map fun x => (x.2.get 71, x.2.get 72, validatorState x.1 1, validatorState x.1 2)) =
      some (none, some 15, .jail, .top) ∧
    ((chain (Ex.life.take 3) (Ex.start 3 0) KV.empty).map fun x => (x.2.get 71, x.2.get 72)) = some (some 15, some 15) := by
  refine ⟨?_, by decide +kernel, by decide +kernel⟩
  intro x hx a k h
  simp only [Ex.life, List.mem_cons, List.not_mem_nil, or_false] at hx
  rcases hx with rfl | rfl | rfl | rfl | rfl | rfl | rfl <;> cases h <;> rfl

/-- The full claim fails: when a key is passed on within a block (its user switches off, another account switches on with it),
the updates contain the key twice, because the comparison meant to merge them compares pointers; the engine rejects the list and
the chain stops. -/
theorem C28_key_passed_on : ∃ (s : State) (l : List (Env × Op)), Start s ∧ (∀ x ∈ l, SortOk x.1.sort) ∧ (chain l s KV.empty).isNone = true := by
  refine ⟨Ex.start 3 0, [(Ex.env 1, .switchOn 1 71), (Ex.env 1, .switchOn 3 73), (Ex.env 1, .gather), (Ex.env 2, .switchOff 1),
    (Ex.env 2, .switchOn 2 71), (Ex.env 2, .gather)], Ex.start_ok 3 0 (by omega), ?_, by decide +kernel⟩
  intro x hx
  simp only [List.mem_cons, List.not_mem_nil, or_false] at hx
  rcases hx with rfl | rfl | rfl | rfl | rfl | rfl <;> exact sortBefore_ok

/-- The full claim fails in another way: while a validator is in jail somebody else may switch on with its key; after its release
both are chosen, and when one of them leaves the engine drops the key although the other one is still chosen. -/
theorem C28_chosen_but_absent : ∃ (s : State) (l : List (Env × Op)), Start s ∧ (∀ x ∈ l, SortOk x.1.sort) ∧
    ∃ t E, chain l s KV.empty = some (t, E) ∧ Chosen t 2 71 15 ∧ E.get 71 = none := by
  refine ⟨Ex.start 5 0, [(Ex.env 1, .switchOn 1 71), (Ex.env 1, .switchOn 3 73), (Ex.env 1, .gather), (Ex.env 2, .stroke 1),
    (Ex.env 3, .stroke 1), (Ex.env 3, .gather), (Ex.env 4, .switchOn 2 71), (Ex.env 4, .gather), (Ex.env 20, .unjail 1),
    (Ex.env 20, .gather), (Ex.env 21, .switchOff 1), (Ex.env 21, .gather)], Ex.start_ok 5 0 (by omega), ?_, ?_⟩
  · intro x hx
    simp only [List.mem_cons, List.not_mem_nil, or_false] at hx
    rcases hx with rfl | rfl | rfl | rfl | rfl | rfl | rfl | rfl | rfl | rfl | rfl | rfl <;> exact sortBefore_ok
  · generalize hl : ([(Ex.env 1, .switchOn 1 71), (Ex.env 1, .switchOn 3 73), (Ex.env 1, .gather), (Ex.env 2, .stroke 1),
      (Ex.env 3, .stroke 1), (Ex.env 3, .gather), (Ex.env 4, .switchOn 2 71), (Ex.env 4, .gather), (Ex.env 20, .unjail 1),
      (Ex.env 20, .gather), (Ex.env 21, .switchOff 1), (Ex.env 21, .gather)] : List (Env × Op)) = l
    cases hx : chain l (Ex.start 5 0) KV.empty with
    | none =>
      exfalso
      have : (chain l (Ex.start 5 0) KV.empty).isSome = true := by subst hl; decide +kernel
      rw [hx] at this; cases this
    | some x =>
      refine ⟨x.1, x.2, rfl, ?_⟩
      have h : (chain l (Ex.start 5 0) KV.empty).map (fun x => (validatorState x.1 2, ((x.1.records.get 2).map fun i => (i.pubKey, i.lastPower)), x.2.get 71))
          = some (.top, some (71, 15), none) := by subst hl; decide +kernel
      rw [hx] at h
      simp only [Option.map_some, Option.some.injEq, Prod.mk.injEq] at h
      obtain ⟨h1, h2, h3⟩ := h
      refine ⟨⟨Or.inl h1, ?_⟩, h3⟩
      cases hr : x.1.records.get 2 with
      | none => rw [hr] at h2; cases h2
      | some i =>
        rw [hr] at h2
        simp only [Option.map_some, Option.some.injEq, Prod.mk.injEq] at h2
        exact ⟨i, rfl, h2.1, h2.2⟩

end Verif.Noding
