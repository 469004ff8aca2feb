import Verif.Noding.Qualify
import Verif.Noding.Props
import Verif.Noding.Export

/-! Property C85: blocks are credited to the accounts that run the nodes. -/
namespace Verif.Noding
open Verif.Util

/-! ### Model -/

/-- keeper/query_server.go:56-75, keeper/keeper.go:824-830 -/
def queryProposer (s : State) (height : Int) : Option Addr := s.proposers.get height

/-- keeper/query_server.go:99-118 -/
def queryOperator (s : State) (k : PubKey) : Option Addr := s.operators.get k

/-- keeper/query_server.go:120-134, keeper/keeper.go:547-565 -/
def querySwitchedOn (s : State) : List Addr := (actives s).map Prod.fst

/-- keeper/query_server.go:136-158 -/
def queryQueue (s : State) : List (Nat × Addr) := s.queue.entries

/-! ### Specification -/

/-- The counters of votes stay as they are. -/
def Info.Uncounted (i j : Info) : Prop :=
  j.okBlocks = i.okBlocks ∧ j.missed = i.missed ∧ j.strokes = i.strokes ∧ j.jailed = i.jailed ∧ j.unjailAt = i.unjailAt ∧
    j.jailCount = i.jailCount ∧ j.score = i.score

/-- What a vote (`some true`: signed, `some false`: missed, `none`: not asked) does to the counters of a record. -/
def Credited (e : Env) (p : Params) (i j : Info) : Option Bool → Prop
  | none => i.Uncounted j
  | some true => j.okBlocks = i.okBlocks + 1 ∧ j.missed = 0 ∧ j.strokes = i.strokes ∧ j.jailed = i.jailed ∧ j.unjailAt = i.unjailAt ∧
      j.jailCount = i.jailCount ∧ j.score = i.score + (if (100 : Int) ∣ i.okBlocks + 1 then 1 else 0)
  | some false =>
    if i.jailed then i.Uncounted j
    else j.okBlocks = 0 ∧ j.strokes = i.strokes + 1 ∧ j.score = i.score - i.okBlocks.tdiv 100 - 1 ∧
      if i.missed + 1 < p.jailAfter then j.missed = i.missed + 1 ∧ j.jailed = false ∧ j.unjailAt = i.unjailAt ∧ j.jailCount = i.jailCount
      else j.missed = 0 ∧ j.jailed = true ∧ j.unjailAt = e.height + p.unjailAfter ∧ j.jailCount = i.jailCount + 1

/-- The vote of the account that runs the node, in a list of votes by key. -/
def voteOf (owner : PubKey → Addr) (votes : List (PubKey × Bool)) (a : Addr) : Option Bool :=
  (votes.find? fun v => decide (owner v.1 = a)).map Prod.snd

/-! ### The index of keys knows every key the engine has had -/

theorem run_operators_same (e : Env) (s : State) (op : Op) (hg : op ≠ .gather) (hs : ∀ a k, op ≠ .switchOn a k) :
    (op.run e s).operators = s.operators := by
  have upd : ∀ {s' : State} {a : Addr} {f : KV Nat Addr → Info → KV Nat Addr × Info}, s'.operators = s.operators →
      ((update s' a f).getD s).operators = s.operators := by
    intro s' a f h
    cases hu : update s' a f with
    | none => rfl
    | some t => obtain ⟨j, -, rfl⟩ := update_eq.1 hu; exact h
  have stat : ∀ {s1 t : State} {a : Addr}, onStatusUpdate e s1 a = some t → t.operators = s1.operators := by
    intro s1 t a h
    rcases onStatusUpdate_some h with rfl | ⟨-, -, h⟩
    · rfl
    · obtain ⟨j, -, rfl⟩ := update_eq.1 h; rfl
  have stk : ∀ {s1 t : State} {a : Addr}, onStakeChanged e s1 a = some t → t.operators = s1.operators := by
    intro s1 t a h
    rcases onStakeChanged_some h with rfl | ⟨j, q, st, -, -, -, ⟨-, -, rfl⟩ | ⟨-, rfl⟩⟩ <;> rfl
  cases op with
  | switchOn a k => exact absurd rfl (hs a k)
  | gather => exact absurd rfl hg
  | switchOff a => exact upd rfl
  | proposed a => exact upd rfl
  | tick a => exact upd rfl
  | stroke a => exact upd rfl
  | byzantine a => exact upd rfl
  | unjail a =>
    show ((unjail e s a).getD s).operators = _
    cases h : unjail e s a with
    | none => rfl
    | some t => obtain ⟨i, q, -, -, -, -, ⟨-, st, -, rfl⟩ | ⟨-, rfl⟩⟩ := unjail_some h <;> rfl
  | statusUpdate a =>
    show ((onStatusUpdate e s a).getD s).operators = _
    cases h : onStatusUpdate e s a with
    | none => rfl
    | some t => exact stat h
  | stakeChanged a =>
    show ((onStakeChanged e s a).getD s).operators = _
    cases h : onStakeChanged e s a with
    | none => rfl
    | some t => exact stk h
  | addStaff a =>
    show (addToStaff s a).operators = _
    unfold addToStaff
    split <;> rfl
  | removeStaff a =>
    show (removeFromStaff e s a).operators = _
    rcases removeFromStaff_cases e s a with h | ⟨i, -, -, s1, rfl, h | ⟨-, s2, h2, h | h⟩⟩
    · rw [h]
    · rw [h]
    · rw [h, stat h2]
    · rw [stk h, stat h2]
  | amnesty => rfl
  | setParams p =>
    show ((setParams s p).getD s).operators = _
    unfold setParams
    split <;> rfl

/-- The selection enters the keys of all active accounts. -/
theorem gather_indexes {e : Env} {s t : State} {u : List Upd} (h : gather e s = some (t, u)) {a : Addr} {i : Info}
    (hi : s.records.get a = some i) (ha : i.isActive = true) : ∃ b, t.operators.get i.pubKey = some b := by
  obtain ⟨x, hx, ho⟩ := gather_scan h
  rw [ho]
  have key : ∀ (l : List (Addr × Info)) (y z : State × List Upd), foldOpt scanStep y l = some z →
      ((a, i) ∈ l ∨ ∃ b, y.1.operators.get i.pubKey = some b) → ∃ b, z.1.operators.get i.pubKey = some b := by
    intro l
    induction l with
    | nil =>
      intro y z hyz h
      simp only [foldOpt, Option.some.injEq] at hyz
      subst hyz
      rcases h with h | h
      · cases h
      · exact h
    | cons r l ih =>
      intro y z hyz h
      obtain ⟨w, hw, hz⟩ := foldOpt_cons.1 hyz
      refine ih w z hz ?_
      rcases h with h | ⟨b, hb⟩
      · rcases List.mem_cons.1 h with h | h
        · right
          subst h
          unfold scanStep at hw
          rw [if_pos ha] at hw
          simp only [Option.bind_eq_bind, Option.bind_eq_some_iff, Option.some.injEq] at hw
          obtain ⟨k', hk', rfl⟩ := hw
          rw [(key?_some hk').2]
          exact ⟨a, KV.get_set_self ..⟩
        · exact Or.inl h
      · right
        unfold scanStep at hw
        split at hw
        · simp only [Option.bind_eq_bind, Option.bind_eq_some_iff, Option.some.injEq] at hw
          obtain ⟨k', -, rfl⟩ := hw
          simp only [KV.get_set]
          split
          · exact ⟨_, rfl⟩
          · exact ⟨b, hb⟩
        · split at hw
          · simp only [Option.bind_eq_bind, Option.bind_eq_some_iff, Option.some.injEq] at hw
            obtain ⟨k', -, s', hs', rfl⟩ := hw
            obtain ⟨j, -, rfl⟩ := update_eq.1 hs'
            exact ⟨b, hb⟩
          · cases hw; exact ⟨b, hb⟩
  exact key _ _ _ hx (Or.inl (KV.mem_entries.2 hi))

/-- The index of keys points to the owners, who have records, and holds every key the engine has. -/
structure Wired (owner : PubKey → Addr) (s : State) : Prop where
  own : ∀ k b, s.operators.get k = some b → owner k = b
  there : ∀ k b, s.operators.get k = some b → ∃ i, s.records.get b = some i
  last : ∀ a i, s.records.get a = some i → i.lastPubKey ≠ 0 → ∃ b, s.operators.get i.lastPubKey = some b

theorem run_known (e : Env) (s : State) (op : Op) {k : PubKey} {b : Addr} (hb : s.operators.get k = some b) :
    ∃ b', (op.run e s).operators.get k = some b' := by
  by_cases hg : op = .gather
  · subst hg
    show ∃ b', (((gather e s).map Prod.fst).getD s).operators.get k = some b'
    cases h : gather e s with
    | none => exact ⟨b, hb⟩
    | some x => exact gather_operators_keep (u := x.2) h hb
  · by_cases hs : ∃ a k, op = .switchOn a k
    · obtain ⟨a, k', rfl⟩ := hs
      show ∃ b', ((switchOn e s a k').getD s).operators.get k = some b'
      cases h : switchOn e s a k' with
      | none => exact ⟨b, hb⟩
      | some t =>
        obtain ⟨_, -, hr, ho, -⟩ := C69_switched_on h
        simp only [Option.getD_some]
        rw [ho]
        split
        · exact ⟨_, rfl⟩
        · exact ⟨b, hb⟩
    · rw [run_operators_same e s op hg (fun a k h => hs ⟨a, k, h⟩)]
      exact ⟨b, hb⟩

theorem Wired.run {owner : PubKey → Addr} {e : Env} {s : State} {E : Engine} {op : Op} (h : Wired owner s) (hS : Synced owner s E)
    (hsort : SortOk e.sort) (hk : ∀ a k, op = .switchOn a k → owner k = a) : Wired owner (op.run e s) := by
  refine ⟨?_, ?_, ?_⟩
  · intro k b hb
    by_cases hg : op = .gather
    · subst hg
      change ((((gather e s).map Prod.fst).getD s)).operators.get k = some b at hb
      cases hgx : gather e s with
      | none => rw [hgx] at hb; exact h.own k b hb
      | some x =>
        rw [hgx] at hb
        rcases gather_operators (u := x.2) hgx hb with h' | ⟨i, hi, ha, rfl⟩
        · exact h.own k b h'
        · simp only [Info.isActive, Bool.and_eq_true] at ha
          exact hS.key b i hi (hS.on b i hi ha.1.1)
    · by_cases hs : ∃ a k, op = .switchOn a k
      · obtain ⟨a, k', rfl⟩ := hs
        change ((switchOn e s a k').getD s).operators.get k = some b at hb
        cases hx : switchOn e s a k' with
        | none => rw [hx] at hb; exact h.own k b hb
        | some t =>
          obtain ⟨_, -, hr, ho, -⟩ := C69_switched_on hx
          rw [hx] at hb
          simp only [Option.getD_some] at hb
          rw [ho] at hb
          split at hb
          · rename_i hkk
            cases hb
            rw [hkk]
            exact hk _ _ rfl
          · exact h.own k b hb
      · rw [run_operators_same e s op hg (fun a k h => hs ⟨a, k, h⟩)] at hb
        exact h.own k b hb
  · intro k b hb
    rcases run_operators e s op hb with h' | h'
    · obtain ⟨i, hi⟩ := h.there k b h'
      obtain ⟨j, hj, -⟩ := run_change e s op hi
      exact ⟨j, hj⟩
    · exact h'
  · intro a j hj h0
    by_cases hg : op = .gather
    · subst hg
      have hG : Good s := ⟨hS.params, hS.clean, hS.on⟩
      obtain ⟨t, u, ht⟩ := hG.total hsort
      have hr : Op.gather.run e s = t := by show ((gather e s).map Prod.fst).getD s = t; rw [ht]; rfl
      rw [hr] at hj ⊢
      obtain ⟨hGt, top, rest, mid, O, S⟩ := hG.gather hsort ht
      have hp : j.lastPower ≠ 0 := fun h => h0 ((hGt.clean a j hj).1 h)
      obtain ⟨x, hx, rfl, rfl⟩ := S.of_record hj (Or.inr hp)
      obtain ⟨hm, ha⟩ := S.mem x hx
      have : x.power.isSome = true := by
        cases hxp : x.power with
        | none => exfalso; apply hp; show x.power.getD 0 = 0; rw [hxp]; rfl
        | some p => rfl
      rw [(settle_inj_fields ..).2.2.2, if_pos this]
      exact gather_indexes ht hm ha
    · cases hsa : s.records.get a with
      | none =>
        rcases run_fresh e s op hsa with h1 | ⟨j1, h1, h2⟩
        · rw [hj] at h1; cases h1
        · rw [hj] at h1; cases h1
          exact absurd h2.2.1 h0
      | some i =>
        obtain ⟨j2, h3, h5⟩ := run_last (P := fun x => x.lastPubKey = i.lastPubKey) (fun x y hp _ hy => hy.symm.trans hp) e s hg ⟨i, hsa, rfl⟩
        rw [hj] at h3; cases h3
        rw [h5] at h0 ⊢
        obtain ⟨b, hb⟩ := h.last a i hsa h0
        exact run_known e s op hb

/-- Every prefix of an execution, with the engine it has then, is in order. -/
theorem wired_prefix {owner : PubKey → Addr} : ∀ {l : List (Env × Op)} {s : State} {E : Engine}, Synced owner s E → Wired owner s →
    (∀ x ∈ l, SortOk x.1.sort) → KeysOwned owner l →
    ∃ E', Noding.chain l s E = some (runs l s, E') ∧ Synced owner (runs l s) E' ∧ Wired owner (runs l s) := by
  intro l
  induction l with
  | nil => intro s E h hw _ _; exact ⟨E, rfl, h, hw⟩
  | cons x l ih =>
    intro s E h hw hs hk
    have hs' : ∀ y ∈ l, SortOk y.1.sort := fun y hy => hs y (List.mem_cons_of_mem _ hy)
    have hk' : KeysOwned owner l := fun y hy => hk y (List.mem_cons_of_mem _ hy)
    have hsort := hs x (List.mem_cons_self ..)
    have hw' := hw.run (e := x.1) (op := x.2) h hsort (fun a k he => hk x (List.mem_cons_self ..) a k he)
    unfold Noding.chain
    by_cases hg : x.2 = .gather
    · rw [if_pos hg]
      obtain ⟨t, u, hgt⟩ := gather_total (e := x.1) hsort h.clean
        (fun a i hi ha => h.on a i hi (by simp only [Info.isActive, Bool.and_eq_true] at ha; exact ha.1.1)) h.params
      obtain ⟨E', hE, hS⟩ := h.gather hsort hgt
      have hr : x.2.run x.1 s = t := by rw [hg]; show ((Noding.gather x.1 s).map Prod.fst).getD s = t; rw [hgt]; rfl
      rw [hr] at hw'
      simp only [hgt, hE, Option.bind_eq_bind, Option.bind_some, runs_cons, hr]
      exact ih hS hw' hs' hk'
    · rw [if_neg hg]
      exact ih (h.step hg (fun a k he => hk x (List.mem_cons_self ..) a k he)) hw' hs' hk'

theorem known_runs {k : PubKey} : ∀ (l : List (Env × Op)) {s : State} {b : Addr}, s.operators.get k = some b → ∃ b', (runs l s).operators.get k = some b'
  | [], _, b, h => ⟨b, h⟩
  | x :: l, s, _, h => by
    obtain ⟨b', h'⟩ := run_known x.1 s x.2 h
    exact known_runs l h'

/-! ### The start of a block -/

/-- What the start of a block needs of the store: the keys lead to the owners, and whoever is on has a key. -/
structure Found (owner : PubKey → Addr) (ks : PubKey → Prop) (s : State) : Prop where
  key : ∀ k, ks k → s.operators.get k = some (owner k)
  there : ∀ k, ks k → ∃ i, s.records.get (owner k) = some i
  on : ∀ a i, s.records.get a = some i → i.status = true → i.pubKey ≠ 0

theorem Found.find {owner : PubKey → Addr} {ks : PubKey → Prop} {s : State} (h : Found owner ks s) {k : PubKey} (hk : ks k) :
    findValidator s k = some (owner k) := by
  obtain ⟨i, hi⟩ := h.there k hk
  unfold findValidator validatorByKey
  rw [h.key k hk]
  simp only [hi]
  by_cases ha : i.isActive = true
  · rw [if_pos ha]
    simp only [Info.isActive, Bool.and_eq_true] at ha
    rw [if_neg (h.on _ i hi ha.1.1)]
    rfl
  · rw [if_neg ha]; rfl

/-- An update of one record by something that leaves key and switch alone (or turns the switch off). -/
theorem Found.update {owner : PubKey → Addr} {ks : PubKey → Prop} {s s' t : State} {a : Addr} {f : KV Nat Addr → Info → KV Nat Addr × Info}
    (h : Found owner ks s) (ho : s'.operators = s.operators) (hr : s'.records = s.records) (hu : update s' a f = some t)
    (hf : ∀ q i, (f q i).2.pubKey = i.pubKey ∧ ((f q i).2.status = true → i.status = true)) : Found owner ks t := by
  have hrec := update_records hu
  obtain ⟨i, hi, rfl⟩ := update_eq.1 hu
  refine ⟨fun k hk => ?_, fun k hk => ?_, fun b j hj hs => ?_⟩
  · show s'.operators.get k = _
    rw [ho]; exact h.key k hk
  · obtain ⟨j, hj⟩ := h.there k hk
    rw [hrec, hr]
    split
    · rename_i hb; rw [← hb, hj]; exact ⟨_, rfl⟩
    · exact ⟨j, hj⟩
  · rw [hrec, hr] at hj
    split at hj
    · rw [hr] at hi
      rw [hi] at hj
      simp only [Option.map_some, Option.some.injEq] at hj
      subst hj
      rw [(hf _ i).1]
      exact h.on _ i hi ((hf _ i).2 hs)
    · exact h.on b j hj hs

/-- The fields votes do not touch. -/
def Info.file (i : Info) : Int × Nat × Bool × Bool × PubKey := (i.proposed, i.infractions, i.banned, i.staff, i.pubKey)

theorem core_file {i j : Info} (h : i.core = j.core) : i.file = j.file := by
  have := congrArg Info.file h; exact this

theorem core_credited {e : Env} {p : Params} {i j j' : Info} {v : Option Bool} (h : j'.core = j.core) (hc : Credited e p i j v) : Credited e p i j' v := by
  have h1 : j'.okBlocks = j.okBlocks := by have := congrArg Info.okBlocks h; exact this
  have h2 : j'.missed = j.missed := by have := congrArg Info.missed h; exact this
  have h3 : j'.strokes = j.strokes := by have := congrArg Info.strokes h; exact this
  have h4 : j'.jailed = j.jailed := by have := congrArg Info.jailed h; exact this
  have h5 : j'.unjailAt = j.unjailAt := by have := congrArg Info.unjailAt h; exact this
  have h6 : j'.jailCount = j.jailCount := by have := congrArg Info.jailCount h; exact this
  have h7 : j'.score = j.score := by have := congrArg Info.score h; exact this
  rcases v with _ | _ | _ <;> (simp only [Credited, Info.Uncounted, h1, h2, h3, h4, h5, h6, h7] at hc ⊢; exact hc)

theorem Credited.trans {e : Env} {p : Params} {i j k : Info} {v : Option Bool} (h : Credited e p i j v) (h' : Credited e p j k none) : Credited e p i k v := by
  obtain ⟨h1, h2, h3, h4, h5, h6, h7⟩ : j.Uncounted k := h'
  rcases v with _ | _ | _ <;> (simp only [Credited, Info.Uncounted, h1, h2, h3, h4, h5, h6, h7] at h ⊢; exact h)

theorem Credited.trans' {e : Env} {p : Params} {i j k : Info} {v : Option Bool} (h : Credited e p i j none) (h' : Credited e p j k v) : Credited e p i k v := by
  obtain ⟨h1, h2, h3, h4, h5, h6, h7⟩ : i.Uncounted j := h
  rcases v with _ | _ | _ <;> (simp only [Credited, Info.Uncounted, h1, h2, h3, h4, h5, h6, h7] at h' ⊢; exact h')

theorem Credited.refl (e : Env) (p : Params) (i : Info) : Credited e p i i none := ⟨rfl, rfl, rfl, rfl, rfl, rfl, rfl⟩

/-- One vote. -/
theorem vote_step {owner : PubKey → Addr} {ks : PubKey → Prop} {e : Env} {s : State} (h : Found owner ks s) {v : PubKey × Bool} (hk : ks v.1) :
    ∃ t, (if v.2 then markTick s (owner v.1) else markStroke e s (owner v.1)) = some t ∧ Found owner ks t ∧ t.params = s.params ∧
      t.proposers = s.proposers ∧ (∀ a, s.records.get a = none → t.records.get a = none) ∧
      ∀ a i, s.records.get a = some i → ∃ j, t.records.get a = some j ∧ j.file = i.file ∧
        Credited e s.params i j (if owner v.1 = a then some v.2 else none) := by
  obtain ⟨i0, hi0⟩ := h.there v.1 hk
  have key : ∀ {f : KV Nat Addr → Info → KV Nat Addr × Info}, (∀ q i, (f q i).2.file = i.file ∧ ((f q i).2.status = true → i.status = true) ∧
      Credited e s.params i (f q i).2 (some v.2)) →
      ∃ t, update s (owner v.1) f = some t ∧ Found owner ks t ∧ t.params = s.params ∧
      t.proposers = s.proposers ∧ (∀ a, s.records.get a = none → t.records.get a = none) ∧
      ∀ a i, s.records.get a = some i → ∃ j, t.records.get a = some j ∧ j.file = i.file ∧
        Credited e s.params i j (if owner v.1 = a then some v.2 else none) := by
    intro f hf
    obtain ⟨t, ht⟩ : ∃ t, update s (owner v.1) f = some t := ⟨_, update_eq.2 ⟨i0, hi0, rfl⟩⟩
    have hr := update_records ht
    refine ⟨t, ht, h.update rfl rfl ht (fun q i => ⟨?_, (hf q i).2.1⟩), ?_, ?_, ?_, ?_⟩
    · have := congrArg (fun x : Int × Nat × Bool × Bool × PubKey => x.2.2.2.2) (hf q i).1; exact this
    · obtain ⟨j, -, rfl⟩ := update_eq.1 ht; rfl
    · obtain ⟨j, -, rfl⟩ := update_eq.1 ht; rfl
    · intro a ha
      rw [hr]
      split
      · rename_i he; rw [← he, ha]; rfl
      · exact ha
    · intro a i hi
      rw [hr]
      by_cases ha : a = owner v.1
      · subst ha
        rw [if_pos rfl, if_pos rfl, hi]
        exact ⟨_, rfl, (hf _ i).1, (hf _ i).2.2⟩
      · rw [if_neg ha, if_neg (Ne.symm ha)]
        exact ⟨i, hi, rfl, .refl ..⟩
  cases hv : v.2 with
  | true =>
    rw [if_pos rfl]
    rw [hv] at key
    refine key fun q i => ?_
    dsimp only
    split
    · rename_i hz
      refine ⟨rfl, id, rfl, rfl, rfl, rfl, rfl, rfl, ?_⟩
      rw [if_pos (Int.dvd_iff_tmod_eq_zero.2 hz)]
    · rename_i hz
      refine ⟨rfl, id, rfl, rfl, rfl, rfl, rfl, rfl, ?_⟩
      rw [if_neg (fun h => hz (Int.dvd_iff_tmod_eq_zero.1 h))]
      exact (Int.add_zero _).symm
  | false =>
    rw [if_neg Bool.false_ne_true]
    rw [hv] at key
    refine key fun q i => ?_
    by_cases hj : i.jailed = true
    · rw [if_pos hj]
      refine ⟨rfl, id, ?_⟩
      simp only [Credited]
      rw [if_pos hj]
      exact Credited.refl e s.params i
    · rw [if_neg hj]
      by_cases hm : i.missed + 1 ≥ (s.params.jailAfter : Int)
      · dsimp only
        rw [if_pos hm]
        refine ⟨(core_file (core_leaveQueue ..)).trans rfl, ?_, core_credited (core_leaveQueue ..) ?_⟩
        · rw [core_status (core_leaveQueue ..)]; exact id
        · show if i.jailed = true then _ else _
          rw [if_neg hj]
          refine ⟨rfl, rfl, rfl, ?_⟩
          rw [if_neg (show ¬ i.missed + 1 < (s.params.jailAfter : Int) by omega)]
          exact ⟨rfl, rfl, rfl, rfl⟩
      · dsimp only
        rw [if_neg hm]
        refine ⟨(core_file (core_moveBack ..)).trans rfl, ?_, core_credited (core_moveBack ..) ?_⟩
        · rw [core_status (core_moveBack ..)]; exact id
        · show if i.jailed = true then _ else _
          rw [if_neg hj]
          refine ⟨rfl, rfl, rfl, ?_⟩
          rw [if_pos (show i.missed + 1 < (s.params.jailAfter : Int) by omega)]
          exact ⟨rfl, by simpa using hj, rfl, rfl⟩

/-- All votes of a block, of nodes of different owners. -/
theorem votes_step {owner : PubKey → Addr} {ks : PubKey → Prop} {e : Env} : ∀ (votes : List (PubKey × Bool)) {s : State}, Found owner ks s →
    (∀ v ∈ votes, ks v.1) → (votes.map fun v => owner v.1).Nodup →
    Found owner ks (markVotes e votes s) ∧ (markVotes e votes s).proposers = s.proposers ∧
      (∀ a, s.records.get a = none → (markVotes e votes s).records.get a = none) ∧
      ∀ a i, s.records.get a = some i → ∃ j, (markVotes e votes s).records.get a = some j ∧ j.file = i.file ∧
        Credited e s.params i j (voteOf owner votes a) := by
  intro votes
  induction votes with
  | nil => intro s h _ _; exact ⟨h, rfl, fun _ h => h, fun a i hi => ⟨i, hi, rfl, .refl ..⟩⟩
  | cons v l ih =>
    intro s h hk hn
    obtain ⟨t, ht, hF, hp, hpr, hnone, hrec⟩ := vote_step (e := e) h (v := v) (hk v (List.mem_cons_self ..))
    rw [List.map_cons, List.nodup_cons] at hn
    obtain ⟨g1, g2, g3, g4⟩ := ih hF (fun w hw => hk w (List.mem_cons_of_mem _ hw)) hn.2
    have hm : markVotes e (v :: l) s = markVotes e l t := by
      show (match findValidator s v.1 with | none => s | some a => _) = _
      rw [h.find (hk v (List.mem_cons_self ..))]
      simp only
      rw [ht]
    rw [hm]
    refine ⟨g1, g2.trans hpr, fun a ha => g3 a (hnone a ha), fun a i hi => ?_⟩
    obtain ⟨j, hj, hf, hc⟩ := hrec a i hi
    obtain ⟨j', hj', hf', hc'⟩ := g4 a j hj
    refine ⟨j', hj', hf'.trans hf, ?_⟩
    rw [hp] at hc'
    unfold voteOf at hc' ⊢
    rw [List.find?_cons]
    by_cases ha : owner v.1 = a
    · rw [if_pos ha] at hc
      have : l.find? (fun v => decide (owner v.1 = a)) = none := by
        rw [List.find?_eq_none]
        intro w hw he
        exact hn.1 (List.mem_map.2 ⟨w, hw, by rw [ha]; simpa using he⟩)
      rw [this] at hc'
      simp only [ha, decide_true, Option.map_some]
      exact hc.trans hc'
    · rw [if_neg ha] at hc
      simp only [ha, decide_false]
      exact hc.trans' hc'

/-- The proposer. -/
theorem propose_step {owner : PubKey → Addr} {ks : PubKey → Prop} {e : Env} {s : State} (h : Found owner ks s) {k : PubKey} (hk : ks k) :
    Found owner ks (creditProposer e k s) ∧ (creditProposer e k s).proposers = s.proposers.set (e.height - 1) (owner k) ∧
      (creditProposer e k s).params = s.params ∧
      (∀ a, s.records.get a = none → (creditProposer e k s).records.get a = none) ∧
      ∀ a i, s.records.get a = some i → ∃ j, (creditProposer e k s).records.get a = some j ∧
        j.file = (i.proposed + (if owner k = a then 1 else 0), i.infractions, i.banned, i.staff, i.pubKey) ∧ Credited e s.params i j none := by
  obtain ⟨i0, hi0⟩ := h.there k hk
  have hm : creditProposer e k s = (markProposed e s (owner k)).getD s := by
    unfold creditProposer
    rw [h.find hk]
  obtain ⟨t, ht⟩ : ∃ t, markProposed e s (owner k) = some t := ⟨_, update_eq.2 ⟨i0, hi0, rfl⟩⟩
  rw [hm, ht, Option.getD_some]
  have ht : update { s with proposers := s.proposers.set (e.height - 1) (owner k) } (owner k) _ = some t := ht
  have hr := update_records ht
  refine ⟨h.update (s' := { s with proposers := s.proposers.set (e.height - 1) (owner k) }) rfl rfl ht (fun q i => ⟨?_, ?_⟩), ?_, ?_, ?_, ?_⟩
  · have := congrArg Info.pubKey (core_moveBack q (owner k) { i with proposed := i.proposed + 1 }); exact this
  · rw [core_status (core_moveBack ..)]; exact id
  · obtain ⟨j, -, rfl⟩ := update_eq.1 ht; rfl
  · obtain ⟨j, -, rfl⟩ := update_eq.1 ht; rfl
  · intro a ha
    rw [hr]
    split
    · rename_i he; show Option.map _ (s.records.get (owner k)) = none; rw [← he, ha]; rfl
    · exact ha
  · intro a i hi
    rw [hr]
    by_cases ha : a = owner k
    · subst ha
      rw [if_pos rfl, if_pos rfl]
      show ∃ j, Option.map _ (s.records.get (owner k)) = some j ∧ _
      rw [hi]
      refine ⟨_, rfl, core_file (core_moveBack ..), core_credited (core_moveBack ..) ⟨rfl, rfl, rfl, rfl, rfl, rfl, rfl⟩⟩
    · rw [if_neg ha, if_neg (Ne.symm ha)]
      exact ⟨i, hi, by rw [Int.add_zero]; rfl, .refl ..⟩

/-- The evidence. -/
theorem punish_step {owner : PubKey → Addr} {ks : PubKey → Prop} (e : Env) (p : Params) : ∀ (ev : List PubKey) {s : State}, Found owner ks s → (∀ k ∈ ev, ks k) →
    (punish ev s).proposers = s.proposers ∧ (∀ a, s.records.get a = none → (punish ev s).records.get a = none) ∧
      ∀ a i, s.records.get a = some i → ∃ j, (punish ev s).records.get a = some j ∧ j.proposed = i.proposed ∧
        j.infractions = i.infractions + ev.countP (fun k => decide (owner k = a)) ∧ j.staff = i.staff ∧ j.pubKey = i.pubKey ∧
        (j.banned = true ↔ i.banned = true ∨ (∃ k ∈ ev, owner k = a) ∧ 2 ≤ j.infractions) ∧ Credited e p i j none := by
  intro ev
  induction ev with
  | nil => intro s h _; exact ⟨rfl, fun _ h => h, fun a i hi => ⟨i, hi, rfl, rfl, rfl, rfl, by simp, .refl ..⟩⟩
  | cons k l ih =>
    intro s h hk
    have hkk := hk k (List.mem_cons_self ..)
    obtain ⟨i0, hi0⟩ := h.there k hkk
    obtain ⟨t, ht⟩ : ∃ t, markByzantine s (owner k) = some t := ⟨_, update_eq.2 ⟨i0, hi0, rfl⟩⟩
    have hm : punish (k :: l) s = punish l t := by
      show (match findValidator s k with | none => s | some a => _) = _
      rw [h.find hkk]
      simp only
      rw [ht]
    have hr := update_records ht
    have hF : Found owner ks t := h.update rfl rfl ht (fun q i => by
      dsimp only
      split
      · refine ⟨?_, ?_⟩
        · have := congrArg Info.pubKey (core_leaveQueue q { i with infractions := i.infractions + 1, banned := true, status := false }); exact this
        · rw [core_status (core_leaveQueue ..)]; intro h; cases h
      · refine ⟨?_, ?_⟩
        · have := congrArg Info.pubKey (core_moveBack q (owner k) { i with infractions := i.infractions + 1 }); exact this
        · rw [core_status (core_moveBack ..)]; exact id)
    obtain ⟨g1, g2, g3⟩ := ih hF (fun w hw => hk w (List.mem_cons_of_mem _ hw))
    rw [hm]
    refine ⟨g1.trans ?_, fun a ha => g2 a ?_, fun a i hi => ?_⟩
    · obtain ⟨j, -, rfl⟩ := update_eq.1 ht; rfl
    · rw [hr]
      split
      · rename_i he; rw [← he, ha]; rfl
      · exact ha
    · by_cases ha : a = owner k
      · subst ha
        obtain ⟨j, hj, hfile, hcred⟩ : ∃ j, t.records.get (owner k) = some j ∧
            j.file = (i.proposed, i.infractions + 1, i.banned || decide (2 ≤ i.infractions + 1), i.staff, i.pubKey) ∧ Credited e p i j none := by
          rw [hr, if_pos rfl, hi]
          refine ⟨_, rfl, ?_⟩
          dsimp only
          split
          · rename_i h2
            refine ⟨(core_file (core_leaveQueue ..)).trans ?_, core_credited (core_leaveQueue ..) ⟨rfl, rfl, rfl, rfl, rfl, rfl, rfl⟩⟩
            have : decide (2 ≤ i.infractions + 1) = true := decide_eq_true h2
            rw [this, Bool.or_true]
            rfl
          · rename_i h2
            refine ⟨(core_file (core_moveBack ..)).trans ?_, core_credited (core_moveBack ..) ⟨rfl, rfl, rfl, rfl, rfl, rfl, rfl⟩⟩
            have : decide (2 ≤ i.infractions + 1) = false := decide_eq_false h2
            rw [this, Bool.or_false]
            rfl
        obtain ⟨j', hj', q1, q2, q3, q4, q5, q6⟩ := g3 _ j hj
        simp only [Info.file, Prod.mk.injEq] at hfile
        obtain ⟨f1, f2, f3, f4, f5⟩ := hfile
        refine ⟨j', hj', q1.trans f1, ?_, q3.trans f4, q4.trans f5, ?_, hcred.trans q6⟩
        · rw [q2, f2, List.countP_cons]; simp; omega
        · rw [q5, f3, q2, f2]
          simp only [Bool.or_eq_true, decide_eq_true_eq, List.mem_cons, exists_eq_or_imp, true_or, true_and]
          constructor
          · rintro ((h | h) | ⟨-, h⟩)
            · exact Or.inl h
            · right; omega
            · exact Or.inr h
          · rintro (h | h)
            · exact Or.inl (Or.inl h)
            · by_cases hc : List.countP (fun k_1 => decide (owner k_1 = owner k)) l = 0
              · rw [hc] at h; exact Or.inl (Or.inr h)
              · obtain ⟨x, hx, hx'⟩ := List.countP_pos_iff.1 (Nat.pos_of_ne_zero hc)
                exact Or.inr ⟨⟨x, hx, by simpa using hx'⟩, h⟩
      · have hj : t.records.get a = some i := by rw [hr, if_neg ha, hi]
        obtain ⟨j', hj', q1, q2, q3, q4, q5, q6⟩ := g3 _ i hj
        refine ⟨j', hj', q1, ?_, q3, q4, ?_, q6⟩
        · rw [q2, List.countP_cons]; simp [Ne.symm ha]
        · rw [q5]; simp [Ne.symm ha]

/-! ### The whole -/

theorem run_proposers_same {e : Env} {s : State} {op : Op} (hne : ∀ b, op ≠ .proposed b) : (op.run e s).proposers = s.proposers := by
  have upd : ∀ {s' : State} {a : Addr} {f : KV Nat Addr → Info → KV Nat Addr × Info}, s'.proposers = s.proposers →
      ((update s' a f).getD s).proposers = s.proposers := by
    intro s' a f h
    cases hu : update s' a f with
    | none => rfl
    | some t => obtain ⟨j, -, rfl⟩ := update_eq.1 hu; exact h
  have stat : ∀ {s1 t : State} {a : Addr}, onStatusUpdate e s1 a = some t → t.proposers = s1.proposers := by
    intro s1 t a h
    rcases onStatusUpdate_some h with rfl | ⟨-, -, h⟩
    · rfl
    · obtain ⟨j, -, rfl⟩ := update_eq.1 h; rfl
  have stk : ∀ {s1 t : State} {a : Addr}, onStakeChanged e s1 a = some t → t.proposers = s1.proposers := by
    intro s1 t a h
    rcases onStakeChanged_some h with rfl | ⟨j, q, st, -, -, -, ⟨-, -, rfl⟩ | ⟨-, rfl⟩⟩ <;> rfl
  cases op with
  | proposed b => exact absurd rfl (hne b)
  | switchOn b k =>
    show ((switchOn e s b k).getD s).proposers = _
    cases h : switchOn e s b k with
    | none => rfl
    | some t => obtain ⟨_, -, -, -, -, h5, -⟩ := C69_switched_on h; exact h5
  | switchOff b => exact upd rfl
  | tick b => exact upd rfl
  | stroke b => exact upd rfl
  | byzantine b => exact upd rfl
  | unjail b =>
    show ((unjail e s b).getD s).proposers = _
    cases h : unjail e s b with
    | none => rfl
    | some t => obtain ⟨i, q, -, -, -, -, ⟨-, st, -, rfl⟩ | ⟨-, rfl⟩⟩ := unjail_some h <;> rfl
  | statusUpdate b =>
    show ((onStatusUpdate e s b).getD s).proposers = _
    cases h : onStatusUpdate e s b with
    | none => rfl
    | some t => exact stat h
  | stakeChanged b =>
    show ((onStakeChanged e s b).getD s).proposers = _
    cases h : onStakeChanged e s b with
    | none => rfl
    | some t => exact stk h
  | addStaff b =>
    show (addToStaff s b).proposers = _
    unfold addToStaff
    split <;> rfl
  | removeStaff b =>
    show (removeFromStaff e s b).proposers = _
    rcases removeFromStaff_cases e s b with h | ⟨i, -, -, s1, rfl, h | ⟨-, s2, h2, h | h⟩⟩
    · rw [h]
    · rw [h]
    · rw [h, stat h2]
    · rw [stk h, stat h2]
  | amnesty => exact rfl
  | setParams p =>
    show ((setParams s p).getD s).proposers = _
    unfold setParams
    split <;> rfl
  | gather =>
    show (((gather e s).map Prod.fst).getD s).proposers = _
    cases h : gather e s with
    | none => rfl
    | some x => exact gather_proposers (u := x.2) h

/-- What was stored about a height stays, as long as blocks are higher. -/
theorem runs_proposers {h : Int} : ∀ {l : List (Env × Op)} {s : State}, (∀ x ∈ l, h + 1 < x.1.height) → (runs l s).proposers.get h = s.proposers.get h
  | [], _, _ => rfl
  | x :: l, s, hl => by
    rw [runs_cons]
    rw [runs_proposers (fun y hy => hl y (List.mem_cons_of_mem _ hy))]
    by_cases hp : ∃ b, x.2 = .proposed b
    · obtain ⟨b, hb⟩ := hp
      rw [hb]
      show ((markProposed x.1 s b).getD s).proposers.get h = _
      cases hu : markProposed x.1 s b with
      | none => rfl
      | some t =>
        obtain ⟨j, -, rfl⟩ := update_eq.1 hu
        have := hl x (List.mem_cons_self ..)
        simp only [Option.getD_some, KV.get_set]
        rw [if_neg (by omega)]
    · rw [run_proposers_same (fun b hb => hp ⟨b, hb⟩)]

/-- The key has been in the engine's set of validators, at some point of the execution. -/
def Seen (s : State) (l : List (Env × Op)) (k : PubKey) : Prop :=
  ∃ l₁ l₂ E, l = l₁ ++ l₂ ∧ chain l₁ s KV.empty = some (runs l₁ s, E) ∧ E.get k ≠ none

theorem Start.wired {owner : PubKey → Addr} {s : State} (hs : Start s)
    (hidx : ∀ k b, s.operators.get k = some b → owner k = b ∧ ∃ i, s.records.get b = some i) : Wired owner s :=
  ⟨fun k b h => (hidx k b h).1, fun k b h => (hidx k b h).2, fun a i hi h => absurd (hs.fresh a i hi).2.1 h⟩

theorem Start.synced {owner : PubKey → Addr} {s : State} (hs : Start s)
    (hown : ∀ a i, s.records.get a = some i → i.pubKey ≠ 0 → owner i.pubKey = a) : Synced owner s KV.empty := by
  refine ⟨hs.good.clean, fun a i hi h => absurd (hs.fresh a i hi).2.1 h, hown, hs.on, hs.params, ?_⟩
  intro k p
  rw [KV.get_empty]
  constructor
  · intro h; cases h
  · rintro ⟨hk, i, hi, h, -⟩; exact absurd (h.symm.trans (hs.fresh _ i hi).2.1) hk

theorem found {owner : PubKey → Addr} {s : State} (hs : Start s)
    (hown : ∀ a i, s.records.get a = some i → i.pubKey ≠ 0 → owner i.pubKey = a)
    (hidx : ∀ k b, s.operators.get k = some b → owner k = b ∧ ∃ i, s.records.get b = some i)
    {l : List (Env × Op)} (hsort : ∀ x ∈ l, SortOk x.1.sort) (hk : KeysOwned owner l) : Found owner (Seen s l) (runs l s) := by
  obtain ⟨E, -, hS, hW⟩ := wired_prefix (hs.synced hown) (hs.wired hidx) hsort hk
  have known : ∀ k, Seen s l k → ∃ b, (runs l s).operators.get k = some b := by
    rintro k ⟨l₁, l₂, E', rfl, hc, hE⟩
    obtain ⟨E'', hc', hS', hW'⟩ := wired_prefix (hs.synced hown) (hs.wired hidx) (l := l₁) (fun x hx => hsort x (List.mem_append_left _ hx))
      (fun x hx => hk x (List.mem_append_left _ hx))
    rw [hc] at hc'
    cases hc'
    obtain ⟨p, hp⟩ := Option.ne_none_iff_exists'.1 hE
    obtain ⟨h0, i, hi, h1, -⟩ := (hS'.engine k p).1 hp
    obtain ⟨b, hb⟩ := hW'.last _ i hi (h1 ▸ h0)
    rw [runs_append]
    rw [h1] at hb
    exact known_runs l₂ hb
  refine ⟨fun k h => ?_, fun k h => ?_, hS.on⟩
  · obtain ⟨b, hb⟩ := known k h
    rw [hb, hW.own k b hb]
  · obtain ⟨b, hb⟩ := known k h
    rw [hW.own k b hb]
    exact hW.there k b hb

/-- C85. -/
theorem C85_partial {owner : PubKey → Addr} {s : State} (hs : Start s)
    (hown : ∀ a i, s.records.get a = some i → i.pubKey ≠ 0 → owner i.pubKey = a)
    (hidx : ∀ k b, s.operators.get k = some b → owner k = b ∧ ∃ i, s.records.get b = some i)
    {l : List (Env × Op)} (hsort : ∀ x ∈ l, SortOk x.1.sort) (hk : KeysOwned owner l)
    {e : Env} {p : PubKey} {votes : List (PubKey × Bool)} {ev : List PubKey} (hp : Seen s l p) (hev : ∀ k ∈ ev, Seen s l k)
    (hvotes : ∃ l₁ l₂ E, l = l₁ ++ l₂ ∧ chain l₁ s KV.empty = some (runs l₁ s, E) ∧ ∀ v ∈ votes, E.get v.1 ≠ none)
    (hn : (votes.map Prod.fst).Nodup) :
    let t := runs l s;
    let u := beginBlock e p votes ev t;
    (∀ a, u.records.get a = none ↔ t.records.get a = none) ∧
    (∀ a i j, t.records.get a = some i → u.records.get a = some j →
      Credited e t.params i j (voteOf owner votes a) ∧ j.proposed = i.proposed + (if owner p = a then 1 else 0) ∧
      j.infractions = i.infractions + ev.countP (fun k => decide (owner k = a)) ∧
      (j.banned = true ↔ i.banned = true ∨ (∃ k ∈ ev, owner k = a) ∧ 2 ≤ j.infractions) ∧ j.staff = i.staff ∧ j.pubKey = i.pubKey) ∧
    (∀ h, h ≠ e.height - 1 → u.proposers.get h = t.proposers.get h) ∧
    ∀ l' : List (Env × Op), (∀ x ∈ l', e.height < x.1.height) → queryProposer (runs l' u) (e.height - 1) = some (owner p) := by
  intro t u
  have hF := found hs hown hidx hsort hk
  have hvk : ∀ v ∈ votes, Seen s l v.1 := by
    obtain ⟨l₁, l₂, E, hl, hc, hE⟩ := hvotes
    exact fun v hv => ⟨l₁, l₂, E, hl, hc, hE v hv⟩
  have hn' : (votes.map fun v => owner v.1).Nodup := by
    obtain ⟨l₁, l₂, E, rfl, hc, hE⟩ := hvotes
    obtain ⟨E'', hc', hS', -⟩ := wired_prefix (hs.synced hown) (hs.wired hidx) (l := l₁) (fun x hx => hsort x (List.mem_append_left _ hx))
      (fun x hx => hk x (List.mem_append_left _ hx))
    rw [hc] at hc'
    cases hc'
    have : (votes.map fun v => owner v.1) = (votes.map Prod.fst).map owner := by rw [List.map_map]; rfl
    rw [this]
    refine List.Nodup.map_on ?_ hn
    intro x hx y hy hxy
    obtain ⟨v, hv, rfl⟩ := List.mem_map.1 hx
    obtain ⟨w, hw, rfl⟩ := List.mem_map.1 hy
    obtain ⟨q, hq⟩ := Option.ne_none_iff_exists'.1 (hE v hv)
    obtain ⟨q', hq'⟩ := Option.ne_none_iff_exists'.1 (hE w hw)
    obtain ⟨-, i, hi, h1, -⟩ := (hS'.engine _ _).1 hq
    obtain ⟨-, i', hi', h1', -⟩ := (hS'.engine _ _).1 hq'
    rw [hxy, hi'] at hi
    cases hi
    exact h1.symm.trans h1'
  obtain ⟨F1, p1, pp, n1, r1⟩ := propose_step (e := e) hF hp
  obtain ⟨F2, p2, n2, r2⟩ := votes_step (e := e) votes F1 hvk hn'
  obtain ⟨p3, n3, r3⟩ := punish_step e t.params ev F2 hev
  have step : ∀ a i, t.records.get a = some i → ∃ j, u.records.get a = some j ∧
      Credited e t.params i j (voteOf owner votes a) ∧ j.proposed = i.proposed + (if owner p = a then 1 else 0) ∧
      j.infractions = i.infractions + ev.countP (fun k => decide (owner k = a)) ∧
      (j.banned = true ↔ i.banned = true ∨ (∃ k ∈ ev, owner k = a) ∧ 2 ≤ j.infractions) ∧ j.staff = i.staff ∧ j.pubKey = i.pubKey := by
    intro a i hi
    obtain ⟨j1, hj1, f1, c1⟩ := r1 a i hi
    obtain ⟨j2, hj2, f2, c2⟩ := r2 a j1 hj1
    obtain ⟨j3, hj3, q1, q2, q3, q4, q5, c3⟩ := r3 a j2 hj2
    rw [pp] at c2
    have f := f2.trans f1
    simp only [Info.file, Prod.mk.injEq] at f
    obtain ⟨g1, g2, g3, g4, g5⟩ := f
    refine ⟨j3, hj3, (Credited.trans' c1 c2).trans c3, q1.trans g1, by rw [q2, g2], by rw [q5, g3], q3.trans g4, q4.trans g5⟩
  have hprop : u.proposers = t.proposers.set (e.height - 1) (owner p) := p3.trans (p2.trans p1)
  refine ⟨fun a => ?_, fun a i j hi hj => ?_, fun h hh => ?_, fun l' hl' => ?_⟩
  · constructor
    · intro h
      cases hi : t.records.get a with
      | none => rfl
      | some i => obtain ⟨j, hj, -⟩ := step a i hi; rw [h] at hj; cases hj
    · intro h; exact n3 a (n2 a (n1 a h))
  · obtain ⟨j', hj', h⟩ := step a i hi
    rw [hj] at hj'
    cases hj'
    exact h
  · rw [hprop, KV.get_set, if_neg hh]
  · unfold queryProposer
    rw [runs_proposers (fun x hx => by have := hl' x hx; omega), hprop, KV.get_set, if_pos rfl]

/-- C85: the lists of switched-on accounts and of the queue, and the operator of a node. -/
theorem C85_queries {owner : PubKey → Addr} {s : State} (hs : Start s)
    (hown : ∀ a i, s.records.get a = some i → i.pubKey ≠ 0 → owner i.pubKey = a)
    (hidx : ∀ k b, s.operators.get k = some b → owner k = b ∧ ∃ i, s.records.get b = some i)
    {l : List (Env × Op)} (hsort : ∀ x ∈ l, SortOk x.1.sort) :
    let t := runs l s;
    (querySwitchedOn t).Pairwise (· < ·) ∧
    (∀ a, a ∈ querySwitchedOn t ↔ ∃ i, t.records.get a = some i ∧ i.status = true ∧ i.jailed = false ∧ i.banned = false) ∧
    (KeysOwned owner l → ∀ k, Seen s l k → queryOperator t k = some (owner k)) ∧
    (Calm l s → ((queryQueue t).map Prod.fst).Pairwise (· < ·) ∧ ((queryQueue t).map Prod.snd).Nodup ∧
      ∀ n a, (n, a) ∈ queryQueue t ↔ n ≠ 0 ∧ ∃ i, t.records.get a = some i ∧ i.lotteryNo = n) := by
  intro t
  refine ⟨?_, fun a => ?_, fun hk k h => (found hs hown hidx hsort hk).key k h, fun hc => ?_⟩
  · unfold querySwitchedOn actives
    refine List.Pairwise.sublist (List.filter_sublist.map _) ?_
    rw [show t.records.entries.map Prod.fst = t.records.keys from rfl]
    exact KV.keys_sorted _
  · unfold querySwitchedOn actives
    rw [List.mem_map]
    constructor
    · rintro ⟨⟨b, i⟩, hm, rfl⟩
      obtain ⟨h1, h2⟩ := List.mem_filter.1 hm
      simp only [Info.isActive, Bool.and_eq_true, Bool.not_eq_true'] at h2
      exact ⟨i, KV.mem_entries.1 h1, h2.1.1, h2.1.2, h2.2⟩
    · rintro ⟨i, hi, h1, h2, h3⟩
      refine ⟨(a, i), List.mem_filter.2 ⟨KV.mem_entries.2 hi, ?_⟩, rfl⟩
      simp [Info.isActive, h1, h2, h3]
  · have hL : Linked t := hs.linked.runs hs.good hsort hc
    have hmem : ∀ n a, (n, a) ∈ queryQueue t ↔ n ≠ 0 ∧ ∃ i, t.records.get a = some i ∧ i.lotteryNo = n := by
      intro n a
      rw [show ((n, a) ∈ queryQueue t) ↔ t.queue.get n = some a from KV.mem_entries]
      constructor
      · intro h
        obtain ⟨h0, h1⟩ := hL.fwd n a h
        refine ⟨h0, ?_⟩
        cases hi : t.records.get a with
        | none => exact absurd (by rw [← h1]; simp [no, hi]) h0
        | some i => exact ⟨i, rfl, (no_eq hi).symm.trans h1⟩
      · rintro ⟨h0, i, hi, rfl⟩
        have := hL.bwd a (by rw [no_eq hi]; exact h0)
        rwa [no_eq hi] at this
    have hsorted : ((queryQueue t).map Prod.fst).Pairwise (· < ·) := KV.keys_sorted _
    refine ⟨hsorted, ?_, hmem⟩
    rw [List.pairwise_map] at hsorted
    rw [List.Nodup, List.pairwise_map]
    refine hsorted.imp_of_mem ?_
    intro x y hx hy hxy he
    obtain ⟨-, i, hi, h1⟩ := (hmem x.1 x.2).1 hx
    obtain ⟨-, j, hj, h2⟩ := (hmem y.1 y.2).1 hy
    rw [he, hj] at hi
    cases hi
    omega

/-- Three switched on, one of them waits in the queue. -/
example : let t := runs [(Ex.env 1, .switchOn 1 71), (Ex.env 1, .switchOn 2 72), (Ex.env 1, .switchOn 3 73), (Ex.env 1, .gather)] (Ex.start 2 0);
    querySwitchedOn t = [1, 2, 3] ∧ queryQueue t = [(1, 3)] ∧ queryOperator t 73 = some 3 := by decide +kernel

/-! ### An execution to which this applies, and what goes wrong without the conditions -/

theorem Ex.life_owned : KeysOwned (fun k => k - 70) (Ex.life.take 4) := by
  intro x hx a k h
  simp only [Ex.life, List.take_succ_cons, List.take_zero, List.mem_cons, List.not_mem_nil, or_false] at hx
  rcases hx with rfl | rfl | rfl | rfl <;> cases h <;> rfl

/-- The node of 2 proposes a block, the node of 1 misses its second vote in a row and goes to jail, the node of 2 misbehaves for the
first time. -/
example :
    let t := runs (Ex.life.take 4) (Ex.start 3 0);
    let u := beginBlock (Ex.env 3) 72 [(71, false), (72, true)] [72] t;
    KeysOwned (fun k => k - 70) (Ex.life.take 4) ∧ Seen (Ex.start 3 0) (Ex.life.take 4) 72 ∧
    (u.records.get 1).map (fun i => (i.jailed, i.unjailAt, i.strokes, i.proposed)) = some (true, 13, 2, 0) ∧
    (u.records.get 2).map (fun i => (i.okBlocks, i.infractions, i.banned, i.proposed)) = some (1, 1, false, 1) ∧
    queryProposer u 2 = some 2 ∧ voteOf (fun k => k - 70) [(71, false), (72, true)] 1 = some false := by
  refine ⟨Ex.life_owned, ?_, by decide +kernel, by decide +kernel, by decide +kernel, by decide +kernel⟩
  have hs : ∀ x ∈ Ex.life.take 3, SortOk x.1.sort := by
    intro x hx
    simp only [Ex.life, List.take_succ_cons, List.take_zero, List.mem_cons, List.not_mem_nil, or_false] at hx
    rcases hx with rfl | rfl | rfl <;> exact sortBefore_ok
  obtain ⟨⟨E, hE⟩, -⟩ := C28_partial (owner := fun k => k - 70) (Ex.start_ok 3 0 (by omega)) (fun a i hi => by cases hi) hs
    (fun x hx => Ex.life_owned x (by
      have : Ex.life.take 4 = Ex.life.take 3 ++ [(Ex.env 2, .stroke 1)] := rfl
      rw [this]; exact List.mem_append_left _ hx))
  refine ⟨Ex.life.take 3, [(Ex.env 2, .stroke 1)], E, rfl, hE, ?_⟩
  have : ((chain (Ex.life.take 3) (Ex.start 3 0) KV.empty).map fun x => (x.2.get 72).isSome) = some true := by decide +kernel
  rw [hE] at this
  intro h
  simp [h] at this

/-- The full claim fails: the query for the proposer of block 3 answers with the account that proposed block 4; asked without a height
(that is, with 0) it finds nothing, although the client promises the last block. -/
theorem C85_proposer_violation : ∃ (s : State) (l l' : List (Env × Op)), Start s ∧ (∀ x ∈ l, SortOk x.1.sort) ∧ (∀ x ∈ l', SortOk x.1.sort) ∧
    KeysOwned (fun k => k - 70) (l ++ l') ∧
    ∃ t u, t = beginBlock (Ex.env 3) 71 [] [] (runs l s) ∧ u = beginBlock (Ex.env 4) 72 [] [] (runs l' t) ∧
      queryProposer u 3 = some 2 ∧ queryProposer u 0 = none := by
  refine ⟨Ex.start 3 0, Ex.life.take 3, [(Ex.env 3, .gather)], Ex.start_ok 3 0 (by omega), ?_, ?_, ?_, _, _, rfl, rfl, by decide +kernel, by decide +kernel⟩
  · intro x hx
    simp only [Ex.life, List.take_succ_cons, List.take_zero, List.mem_cons, List.not_mem_nil, or_false] at hx
    rcases hx with rfl | rfl | rfl <;> exact sortBefore_ok
  · intro x hx
    simp only [List.mem_cons, List.not_mem_nil, or_false] at hx
    subst hx
    exact sortBefore_ok
  · intro x hx a k h
    simp only [Ex.life, List.take_succ_cons, List.take_zero, List.mem_cons, List.not_mem_nil, or_false, List.cons_append, List.nil_append] at hx
    rcases hx with rfl | rfl | rfl | rfl <;> cases h <;> rfl

/-- The full claim fails: nobody has to prove that they hold a key.  While account 1 is in jail, account 2 switches on with the key of
1; from then on, also after 1 has been released, what the node of 1 proposes and misses is counted for 2. -/
theorem C85_key_violation : ∃ (s : State) (l : List (Env × Op)), Start s ∧ (∀ x ∈ l, SortOk x.1.sort) ∧
    (∀ x ∈ l, x.2 ≠ .switchOff 1) ∧ (Ex.env 1, Op.switchOn 1 71) ∈ l ∧
    ∃ t u, t = runs l s ∧ u = beginBlock (Ex.env 21) 71 [(71, true)] [] t ∧ validatorState t 1 = .top ∧
      (t.records.get 1).map Info.pubKey = some 71 ∧ queryOperator t 71 = some 2 ∧
      (t.records.get 1).map (fun i => (i.proposed, i.okBlocks)) = (u.records.get 1).map (fun i => (i.proposed, i.okBlocks)) ∧
      (t.records.get 2).map Info.proposed = some 0 ∧ (u.records.get 2).map Info.proposed = some 1 := by
  refine ⟨Ex.start 5 0, [(Ex.env 1, .switchOn 1 71), (Ex.env 1, .switchOn 3 73), (Ex.env 1, .gather), (Ex.env 2, .stroke 1),
    (Ex.env 3, .stroke 1), (Ex.env 3, .gather), (Ex.env 4, .switchOn 2 71), (Ex.env 4, .gather), (Ex.env 20, .unjail 1),
    (Ex.env 20, .gather)], Ex.start_ok 5 0 (by omega), ?_, ?_, by simp, _, _, rfl, rfl, by decide +kernel, by decide +kernel, by decide +kernel,
    by decide +kernel, by decide +kernel, by decide +kernel⟩
  · intro x hx
    simp only [List.mem_cons, List.not_mem_nil, or_false] at hx
    rcases hx with rfl | rfl | rfl | rfl | rfl | rfl | rfl | rfl | rfl | rfl <;> exact sortBefore_ok
  · intro x hx
    simp only [List.mem_cons, List.not_mem_nil, or_false] at hx
    rcases hx with rfl | rfl | rfl | rfl | rfl | rfl | rfl | rfl | rfl | rfl <;> decide

end Verif.Noding
