import Verif.Referral.Query
import Verif.Referral.Props
import Verif.Referral.Status

/-! C83: what the queries about networks, statuses and transitions answer. -/
namespace Verif.Referral
open Relation Verif.Util

/-! ### Specification -/

/-- The network of `a`: the account itself and everybody who is not banished and has `a` among their first `d` ancestors. -/
def networkOf (st : KV Nat Info) (a : Key) (d : Nat) : List Key :=
  st.keys.filter fun c => decide (c = a) || (!(infoOf st c).banished && (List.range d).any fun n => decide (ancestor st c n = some a))

/-- How many lines are open for a status -/
def openLines (status : Nat) : Nat := if status = 1 then 4 else if status = 2 then 6 else if status = 3 then 8 else 10

/-- Account `k` may be moved below `p`. -/
structure Movable (s : State) (k p : Key) : Prop where
  other : p ≠ k
  new : (infoOf s.store k).referrer ≠ some p
  /-- `p` has no referrer, or `p` is not banished and active or not less than a month before its compression -/
  takes : (infoOf s.store p).referrer = none ∨ (infoOf s.store p).banished = false ∧
    ((infoOf s.store p).active = true ∨ ∃ t, (infoOf s.store p).compressionAt = some t ∧ s.now + 30 * s.day ≤ t)
  above : ∀ n, ancestor s.store p n ≠ some k

/-! ### Networks -/

theorem ancestor_add (st : KV Nat Info) (c : Key) (n : Nat) {a : Key} (h : ancestor st c n = some a) :
    ∀ m, ancestor st c (n + 1 + m) = ancestor st a m
  | 0 => by show (ancestor st c n).bind _ = _; rw [h]; rfl
  | m + 1 => by
    show (ancestor st c (n + 1 + m)).bind _ = (ancestor st a m).bind _
    rw [ancestor_add st c n h m]

theorem ancestor_once {st : KV Nat Info} (h : Consistent st) {c a : Key} {n m : Nat} (hn : ancestor st c n = some a)
    (hm : ancestor st c m = some a) (hlt : n < m) : False := by
  obtain ⟨j, rfl⟩ : ∃ j, m = n + 1 + j := ⟨m - (n + 1), by omega⟩
  rw [ancestor_add st c n hn] at hm
  exact h.acyclic a j hm

theorem sum_filter_or {l : List Key} {p q : Key → Bool} (f : Key → Int) (h : ∀ c ∈ l, p c = true → q c = true → False) :
    ((l.filter fun c => p c || q c).map f).sum = ((l.filter p).map f).sum + ((l.filter q).map f).sum := by
  induction l with
  | nil => rfl
  | cons x l ih =>
    have ih := ih fun c hc => h c (List.mem_cons_of_mem _ hc)
    have hx := h x (by simp)
    rw [List.filter_cons, List.filter_cons, List.filter_cons]
    cases hp : p x with
    | true =>
      cases hq : q x with
      | true => exact absurd (hx hp hq) id
      | false => simp [ih]; ring
    | false =>
      cases hq : q x with
      | true => simp [ih]; ring
      | false => simp [ih]

theorem network_succ (st : KV Nat Info) (h : Consistent st) (a : Key) (d : Nat) (f : Key → Int) :
    ((networkOf st a (d + 1)).map f).sum = ((networkOf st a d).map f).sum + ((below st a (d + 1)).map f).sum := by
  unfold networkOf below
  rw [← sum_filter_or]
  · congr 2
    refine List.filter_congr fun c _ => ?_
    rw [List.range_succ, List.any_append, Nat.add_sub_cancel]
    cases (infoOf st c).banished <;> simp [Bool.or_assoc]
  · intro c _ h1 h2
    rw [Nat.add_sub_cancel, Bool.and_eq_true, decide_eq_true_eq] at h2
    rw [Bool.or_eq_true, decide_eq_true_eq, Bool.and_eq_true, List.any_eq_true] at h1
    rcases h1 with rfl | ⟨-, n, hn, h1⟩
    · exact h.acyclic _ _ h2.1
    · exact ancestor_once h (of_decide_eq_true h1) h2.1 (List.mem_range.1 hn)

theorem network_zero {st : KV Nat Info} {a : Key} (ha : st.has a = true) (f : Key → Int) : ((networkOf st a 0).map f).sum = f a := by
  have e : networkOf st a 0 = st.keys.filter fun c => decide (c = a) := by
    unfold networkOf
    exact List.filter_congr fun c _ => by simp
  have hm : a ∈ st.keys := by
    rw [KV.mem_keys]
    unfold KV.has at ha
    exact Option.isSome_iff_exists.1 ha
  rw [e]
  have hn : (st.keys.filter fun c => decide (c = a)).Nodup := st.keys_nodup.filter _
  have h1 : (st.keys.filter fun c => decide (c = a)) = [a] := by
    have : List.Perm (st.keys.filter fun c => decide (c = a)) [a] := by
      rw [List.perm_ext_iff_of_nodup hn (List.nodup_singleton a)]
      intro c
      rw [List.mem_filter, decide_eq_true_eq, List.mem_singleton]
      exact ⟨fun h => h.2, fun h => ⟨h ▸ hm, h⟩⟩
    exact List.perm_singleton.1 this
  rw [h1]
  simp

theorem upTo_network {st : KV Nat Info} (h : Consistent st) (ht : TotalsMatch 10 st) {a : Key} (ha : st.has a = true) :
    ∀ d, d ≤ 10 → (infoOf st a).coinsUpTo d = ((networkOf st a d).map fun c => (infoOf st c).tot .coins 0).sum ∧
      (infoOf st a).delegatedUpTo d = ((networkOf st a d).map fun c => (infoOf st c).tot .delegated 0).sum
  | 0, _ => by
    rw [network_zero ha, network_zero ha]
    exact ⟨rfl, rfl⟩
  | d + 1, hd => by
    obtain ⟨h1, h2⟩ := upTo_network h ht ha d (by omega)
    rw [network_succ st h, network_succ st h, ← h1, ← h2, ← ht.levels a .coins (d + 1) (by omega) hd,
      ← ht.levels a .delegated (d + 1) (by omega) hd]
    exact ⟨rfl, rfl⟩

theorem lines_eq (q : Nat) : linesOpened q = openLines q := by
  unfold linesOpened openLines
  split <;> simp_all

theorem openLines_le (q : Nat) : openLines q ≤ 10 := by
  unfold openLines
  split
  · omega
  · split
    · omega
    · split <;> omega

/-- **C83, coins.** In executions that keep the totals exact (`totalsOk`), the query about an existing account with a depth of at least one
answers with the coins, and the delegated coins, of its network down to that depth, but not below the lines open for its status. -/
theorem C83_coins_partial (l : List (Env × Op)) (s : State) (h0 : s.start) (h : Along (totalsOk 10) l s) (a : Key) (d : Nat) (hd : 1 ≤ d) :
    let st := (run l s).store
    st.has a = true → queryCoins st a d = some
      (((networkOf st a (min (openLines (infoOf st a).status) d)).map fun c => (infoOf st c).tot .coins 0).sum,
       ((networkOf st a (min (openLines (infoOf st a).status) d)).map fun c => (infoOf st c).tot .delegated 0).sum) := by
  intro st ha
  have ht : Tally 10 (run l s) := Along.run (step_tally le_rfl) l s (start_tally h0) h
  have hc : Consistent st := ht.good.consistent
  have hm : TotalsMatch 10 st := ht.match
  unfold queryCoins
  cases hg : st.get a with
  | none => unfold KV.has at ha; rw [hg] at ha; cases ha
  | some v =>
    have hv : infoOf st a = v := by unfold infoOf; rw [hg]; rfl
    have hle := openLines_le v.status
    obtain ⟨h1, h2⟩ := upTo_network hc hm ha (min (openLines v.status) d) (by omega)
    rw [hv] at h1 h2 ⊢
    show some (coinsInNetwork v d, delegatedInNetwork v d) = _
    unfold coinsInNetwork delegatedInNetwork
    rw [if_neg (by omega), lines_eq, h1, h2]

/-- **C83, no limit.** Depth zero means no limit, for the total. -/
theorem C83_no_limit_partial (l : List (Env × Op)) (s : State) (h0 : s.start) (h : Along (totalsOk 10) l s) (a : Key) :
    let st := (run l s).store
    st.has a = true → (queryCoins st a 0).map Prod.fst =
      some (((networkOf st a (openLines (infoOf st a).status)).map fun c => (infoOf st c).tot .coins 0).sum) := by
  intro st ha
  have h1 := C83_coins_partial l s h0 h a 10 (by omega) ha
  have e : (queryCoins st a 0).map Prod.fst = (queryCoins st a 10).map Prod.fst := by
    unfold queryCoins
    rw [Option.map_map, Option.map_map]
    rfl
  rw [e]
  have h1 : queryCoins st a 10 = _ := h1
  rw [h1, min_eq_left (openLines_le _)]
  rfl

/-! ### Statuses -/

/-- **C83, statuses.** The query about a status is refused exactly for statuses that do not exist; otherwise, for numbers of an existing
network, it says whether the account deserves the status. -/
theorem C83_status (st : KV Nat Info) (k : Key) (q : Nat) :
    (queryCheckStatus st k q = .err ↔ q = 0 ∨ q = 8 ∨ 9 < q) ∧
    (Tame st (infoOf st k) → 1 ≤ q → q ≤ 9 → q ≠ 8 → ∃ b, queryCheckStatus st k q = .ok b ∧ (b = true ↔ Deserves st (infoOf st k) q)) := by
  have hv : validStatus q = true ↔ 1 ≤ q ∧ q ≤ 9 ∧ q ≠ 8 := by
    unfold validStatus
    simp only [Bool.and_eq_true, decide_eq_true_eq, bne_iff_ne]
    tauto
  constructor
  · unfold queryCheckStatus
    cases h : validStatus q with
    | true =>
      have := hv.1 h
      rw [if_neg (by simp)]
      constructor
      · intro h1
        cases hm : meets st q (infoOf st k) <;> rw [hm] at h1 <;> cases h1
      · omega
    | false =>
      have : ¬ (1 ≤ q ∧ q ≤ 9 ∧ q ≠ 8) := fun h' => by rw [hv.2 h'] at h; cases h
      rw [if_pos (by simp)]
      exact ⟨fun _ => by omega, fun _ => rfl⟩
  · intro ht h1 h2 h3
    obtain ⟨b, hb, hb'⟩ := C63_requirements ht (q := q) ⟨h2, h3⟩
    refine ⟨b, ?_, hb'⟩
    unfold queryCheckStatus
    rw [hv.2 ⟨h1, h2, h3⟩, if_neg (by simp), hb]

/-! ### Transitions -/

theorem closed_iff (v : Info) (now day : Int) : v.closed now (30 * day) = false ↔ v.referrer = none ∨ v.banished = false ∧
    (v.active = true ∨ ∃ t, v.compressionAt = some t ∧ now + 30 * day ≤ t) := by
  unfold Info.closed
  cases v.referrer with
  | none => simp
  | some r =>
    cases v.banished with
    | true => simp
    | false =>
      cases v.active with
      | true => simp
      | false =>
        cases v.compressionAt with
        | none => simp [overdue]
        | some t =>
          simp only [Option.map_some, overdue, Option.isSome_some, Bool.true_and, Bool.false_or, Bool.not_false, decide_eq_false_iff_not]
          constructor
          · intro h; exact .inr ⟨trivial, .inr ⟨t, rfl, by omega⟩⟩
          · rintro (h | ⟨-, h | ⟨t', h, h'⟩⟩)
            · cases h
            · cases h
            · injection h with h; omega

theorem reaches_iff (st : KV Nat Info) (k : Key) : ∀ (n : Nat) (x : Option Key) (b : Bool), reaches st k n x = some b →
    (b = true ↔ x = some k ∨ ∃ y m, x = some y ∧ ancestor st y m = some k)
  | n, none, b, h => by
    have : reaches st k n none = some false := by cases n <;> rfl
    rw [this] at h
    injection h with h
    subst h
    simp
  | 0, some y, b, h => by simp [reaches] at h
  | n + 1, some y, b, h => by
    unfold reaches at h
    by_cases hy : y = k
    · rw [if_pos hy] at h
      injection h with h
      subst h hy
      simp
    · rw [if_neg hy] at h
      rw [reaches_iff st k n _ b h]
      constructor
      · rintro (h1 | ⟨z, m, h1, h2⟩)
        · exact .inr ⟨y, 0, rfl, h1⟩
        · refine .inr ⟨y, m + 1, rfl, ?_⟩
          have := ancestor_add st y 0 (a := z) h1 m
          rw [show m + 1 = 0 + 1 + m by omega, this]; exact h2
      · rintro (h1 | ⟨z, m, h1, h2⟩)
        · injection h1 with h1; exact absurd h1 hy
        · injection h1 with h1
          subst h1
          cases m with
          | zero => exact .inl h2
          | succ m =>
            cases hr : (infoOf st y).referrer with
            | none =>
              have : ∀ j, ancestor st y j = none := by
                intro j
                induction j with
                | zero => exact hr
                | succ j ih => show (ancestor st y j).bind _ = _; rw [ih]; rfl
              rw [this] at h2; cases h2
            | some z =>
              refine .inr ⟨z, m, rfl, ?_⟩
              rw [← ancestor_add st y 0 (a := z) hr m, show 0 + 1 + m = m + 1 by omega]; exact h2

theorem validate_total {s : State} {P : Key → Prop} (hf : Forest (treeOf (view s.store)) P) (k p : Key) (fresh : Bool)
    (h0 : (infoOf s.store k).transition = if fresh then none else some p) :
    (Movable s k p → validateTransition k (some p) fresh s = (.ok (), s)) ∧
    (¬ Movable s k p → validateTransition k (some p) fresh s = (.err, s)) := by
  have hend := reaches_ends hf k (n := s.store.entries.length + 2) (by omega) (infoOf s.store p).referrer
  obtain ⟨b, hb⟩ := Option.ne_none_iff_exists'.1 hend
  have hb' := reaches_iff _ _ _ _ _ hb
  have hup : (∃ n, ancestor s.store p n = some k) ↔ b = true := by
    rw [hb']
    constructor
    · rintro ⟨n, hn⟩
      cases n with
      | zero => exact .inl hn
      | succ n =>
        cases hr : (infoOf s.store p).referrer with
        | none =>
          have : ∀ j, ancestor s.store p j = none := by
            intro j
            induction j with
            | zero => exact hr
            | succ j ih => show (ancestor s.store p j).bind _ = _; rw [ih]; rfl
          rw [this] at hn; cases hn
        | some z =>
          refine .inr ⟨z, n, rfl, ?_⟩
          rw [← ancestor_add s.store p 0 (a := z) hr n, show 0 + 1 + n = n + 1 by omega]; exact hn
    · rintro (h | ⟨y, m, h, h'⟩)
      · exact ⟨0, h⟩
      · refine ⟨m + 1, ?_⟩
        have := ancestor_add s.store p 0 (a := y) h m
        rw [show m + 1 = 0 + 1 + m by omega, this]; exact h'
  have err : ∀ {α : Type} (f : Unit → Act α), ((M.errIf true : Act Unit) >>= f) s = (.err, s) := fun _ => rfl
  have run : validateTransition k (some p) fresh s =
      ((M.errIf (k == p) : Act Unit) >>= fun _ =>
        M.errIf (if fresh then (infoOf s.store k).transition.isSome else (infoOf s.store k).transition != some p) >>= fun _ =>
        M.errIf ((infoOf s.store k).referrer == some p) >>= fun _ => M.errIf ((infoOf s.store p).closed s.now s.month) >>= fun _ =>
        M.orPanic (reaches s.store k (s.store.entries.length + 2) (infoOf s.store p).referrer) >>= fun b => M.errIf b) s := rfl
  rw [run]
  have one : ∀ (c : Bool) (f : Unit → Act Unit), ((M.errIf c : Act Unit) >>= f) s = if c then (.err, s) else f () s := by
    intro c f; cases c <;> rfl
  have ht : (if fresh then (infoOf s.store k).transition.isSome else (infoOf s.store k).transition != some p) = false := by
    rw [h0]; cases fresh <;> simp
  rw [one, one, one, one, hb, ht]
  have last : ((M.orPanic (some b) : Act Bool) >>= fun b => M.errIf b) s = if b then (.err, s) else (.ok (), s) := by
    cases b <;> rfl
  rw [last]
  have hmv : Movable s k p ↔ (k == p) = false ∧ ((infoOf s.store k).referrer == some p) = false ∧
      (infoOf s.store p).closed s.now s.month = false ∧ b = false := by
    have hcl : (infoOf s.store p).closed s.now s.month = false ↔ _ := closed_iff (infoOf s.store p) s.now s.day
    rw [hcl]
    constructor
    · intro h
      refine ⟨by simpa using fun e => h.other e.symm, by simpa using h.new, h.takes, ?_⟩
      by_contra hbt
      obtain ⟨n, hn⟩ := hup.2 (by simpa using hbt)
      exact h.above n hn
    · rintro ⟨h1, h3, h4, h5⟩
      refine ⟨fun e => by simp [e] at h1, by simpa using h3, h4, fun n hn => ?_⟩
      rw [hup.1 ⟨n, hn⟩] at h5; cases h5
  rw [hmv]
  cases (k == p) <;> cases ((infoOf s.store k).referrer == some p) <;>
    cases (infoOf s.store p).closed s.now s.month <;> cases b <;> simp

theorem validate_pending {s : State} {k : Key} (p : Key) (h : (infoOf s.store k).transition ≠ none) :
    validateTransition k (some p) true s = (.err, s) := by
  have : (infoOf s.store k).transition.isSome = true := Option.isSome_iff_ne_none.2 h
  unfold validateTransition
  rw [M.bind_ok (M.get_apply s)]
  dsimp only
  rw [this]
  cases k == p <;> rfl

theorem validate_fresh {s : State} {P : Key → Prop} (hf : Forest (treeOf (view s.store)) P) (k p : Key) :
    ((infoOf s.store k).transition = none ∧ Movable s k p → validateTransition k (some p) true s = (.ok (), s)) ∧
    (¬ ((infoOf s.store k).transition = none ∧ Movable s k p) → validateTransition k (some p) true s = (.err, s)) := by
  by_cases ht : (infoOf s.store k).transition = none
  · obtain ⟨h1, h2⟩ := validate_total hf k p true (by rw [ht]; rfl)
    exact ⟨fun h => h1 h.2, fun h => h2 fun h' => h ⟨ht, h'⟩⟩
  · exact ⟨fun h => absurd h.1 ht, fun _ => validate_pending p ht⟩

/-- **C83, transitions.** On every reachable structure the query about a transition answers, and it says yes exactly when the subject may be
moved and no other transition of it is pending. -/
theorem C83_transition (l : List (Env × Op)) (s : State) (h0 : s.start) (h : Along structureOk l s) (k p : Key) :
    ∃ b, queryTransition (run l s) k (some p) = .ok b ∧
      (b = true ↔ (infoOf (run l s).store k).transition = none ∧ Movable (run l s) k p) := by
  obtain ⟨h1, h2⟩ := validate_fresh (Along.run step_good l s (start_good h0) h) k p
  unfold queryTransition
  by_cases hm : (infoOf (run l s).store k).transition = none ∧ Movable (run l s) k p
  · rw [h1 hm]; exact ⟨true, rfl, by simp [hm]⟩
  · rw [h2 hm]; exact ⟨false, rfl, by simp [hm]⟩

theorem pay_keeps {e : Env} {a : Addr} {x : Int} {s t : State} {r : Res Unit} (h : pay e a x s = (r, t)) : t.now = s.now ∧ t.day = s.day := by
  have one : ∀ (a : Addr) (p : Purse) (s : State), (setPurse e a p s).2.now = s.now ∧ (setPurse e a p s).2.day = s.day := by
    intro a p s
    have ho := (bunch_cases (e := e) (Framed.balanceBody (text a)) { s with purse := fun b => if b = a then p else s.purse b }).1
    exact ⟨ho.now, ho.day⟩
  unfold pay at h
  rw [M.bind_ok (M.get_apply s)] at h
  cases hc : decide ((s.purse a).main < x) with
  | true =>
    rw [hc] at h
    have : ∀ f : Unit → Act Unit, ((M.errIf true : Act Unit) >>= f) s = (.err, s) := fun _ => rfl
    rw [this] at h
    injection h with _ h
    subst h
    exact ⟨rfl, rfl⟩
  | false =>
    rw [hc, M.bind_ok (show M.errIf false s = (.ok (), s) from rfl), M.bind_apply] at h
    have h1 := one a { s.purse a with main := (s.purse a).main - x } s
    rcases hr : setPurse e a { s.purse a with main := (s.purse a).main - x } s with ⟨r1, s1⟩
    rw [hr] at h h1
    cases r1 with
    | ok _ =>
      have h2 := one s1.collector { s1.purse s1.collector with main := (s1.purse s1.collector).main + x } s1
      have h : setPurse e s1.collector { s1.purse s1.collector with main := (s1.purse s1.collector).main + x } s1 = (r, t) := h
      rw [h] at h2
      exact ⟨h2.1.trans h1.1, h2.2.trans h1.2⟩
    | err => injection h with _ h; subst h; exact h1
    | panic => injection h with _ h; subst h; exact h1

/-- **C83, requests.** On every reachable structure a request is accepted exactly when the query says yes, the subject can pay the price,
if there is one, and the time of the timeout is one that can be stored (before 2263). -/
theorem C83_request (l : List (Env × Op)) (s : State) (h0 : s.start) (h : Along structureOk l s) (e : Env) (k p : Key) :
    let t := run l s
    (requestTransition e k (some p) t).1 = .ok () ↔
      queryTransition t k (some p) = .ok true ∧ (0 < t.price → (pay e (addrOf k) t.price t).1 = .ok ()) ∧
        Schedule.inRange (t.now + t.day) = true := by
  intro t
  obtain ⟨h1, h2⟩ := validate_fresh (s := t) (Along.run step_good l s (start_good h0) h) k p
  unfold queryTransition
  by_cases hm : (infoOf t.store k).transition = none ∧ Movable t k p
  · rw [h1 hm]
    unfold requestTransition
    rw [M.bind_ok (h1 hm), M.bind_ok (M.get_apply t)]
    have tail : ∀ u : State, u.now = t.now → u.day = t.day →
        ((((M.get : Act State) >>= fun s => setInfo k { infoOf s.store k with transition := some p } >>= fun _ =>
          request (.schedule (s.now + s.day) timeoutHook [k])) u).1 = .ok () ↔ Schedule.inRange (t.now + t.day) = true) := by
      intro u hn hd
      rw [M.bind_ok (M.get_apply u)]
      have e0 : setInfo k { infoOf u.store k with transition := some p } u =
        (.ok (), { u with store := u.store.set k { infoOf u.store k with transition := some p } }) := rfl
      rw [M.bind_ok e0]
      unfold request
      rw [M.bind_ok (M.get_apply _)]
      show (((M.orPanic (Schedule.schedule? u.sched (u.now + u.day) timeoutHook [k]) : Act _) >>= _) _).1 = _ ↔ _
      rw [hn, hd]
      unfold Schedule.schedule?
      cases Schedule.inRange (t.now + t.day) with
      | true => simp; rfl
      | false => simp; intro hh; cases hh
    by_cases hp : 0 < t.price
    · rw [if_pos hp]
      rcases hr : pay e (addrOf k) t.price t with ⟨r, u⟩
      have hk := pay_keeps hr
      cases r with
      | ok a => rw [M.bind_ok hr, tail u hk.1 hk.2]; simp
      | err =>
        have : ∀ f : Unit → Act Unit, ((pay e (addrOf k) t.price) >>= f) t = (.err, u) := fun f => by rw [M.bind_apply, hr]
        rw [this]; simp [hp]
      | panic =>
        have : ∀ f : Unit → Act Unit, ((pay e (addrOf k) t.price) >>= f) t = (.panic, u) := fun f => by rw [M.bind_apply, hr]
        rw [this]; simp [hp]
    · rw [if_neg hp, M.bind_ok (show (pure () : Act Unit) t = (.ok (), t) from rfl), tail t rfl rfl]
      simp [hp]
  · rw [h2 hm]
    have : requestTransition e k (some p) t = (.err, t) := by
      unfold requestTransition
      rw [M.bind_apply, h2 hm]
    rw [this]
    simp

/-! ### Cases and findings -/

/-- Four accounts in a line and one aside; 3 delegates 30000 and 4 delegates 7. -/
def delegators : List (Env × Op) :=
  [(fine, .top (text 0)), (fine, .register (text 1) (text 0) true), (fine, .register (text 2) (text 1) true),
   (fine, .register (text 3) (text 2) true), (fine, .register (text 4) (text 0) false), (fine, .balance 3 { main := 4, delegated := 30000 }),
   (fine, .balance 4 { delegated := 7 })]

theorem delegators_ok : Along (totalsOk 10) delegators plain :=
  ⟨trivial, (show text 1 ≠ text 0 by decide), (show text 2 ≠ text 1 by decide), (show text 3 ≠ text 2 by decide), (show text 4 ≠ text 0 by decide),
    trivial, trivial, trivial⟩

example : plain.start ∧ (run delegators plain).store.has (text 0) = true ∧
    networkOf (run delegators plain).store (text 0) 4 = [text 0, text 1, text 2, text 3, text 4] ∧
    queryCoins (run delegators plain).store (text 0) 2 = some (10, 7) ∧ queryCoins (run delegators plain).store (text 0) 3 = some (30014, 30007) ∧
    queryCheckStatus (run delegators plain).store (text 0) 2 = .ok false := by
  refine ⟨rfl, ?_, ?_, ?_, ?_, ?_⟩ <;> decide +kernel

/-- An account that is not registered has no answer: the query crashes. -/
theorem C83_unknown (st : KV Nat Info) (k : Key) (d : Nat) : queryCoins st k d = none ↔ st.has k = false := by
  unfold queryCoins KV.has
  cases st.get k <;> simp

/-- C83 fails for depth zero: the total is that of the whole network, the delegated coins are those of the account alone. -/
theorem C83_depth_zero_violation : ∃ (l : List (Env × Op)) (s : State) (a : Key), s.start ∧ Along (totalsOk 10) l s ∧
    queryCoins (run l s).store a 0 = some (30014, 0) ∧
    ((networkOf (run l s).store a (openLines (infoOf (run l s).store a).status)).map fun c => (infoOf (run l s).store c).tot .delegated 0).sum = 30007 := by
  refine ⟨delegators, plain, text 0, rfl, delegators_ok, ?_, ?_⟩ <;> decide +kernel

example : Along structureOk moving plain ∧ queryTransition (run moving plain) (text 4) (some (text 2)) = .ok true ∧
    queryTransition (run moving plain) (text 4) (some (text 3)) = .ok false ∧ queryTransition (run moving plain) (text 1) (some (text 4)) = .ok false ∧
    (requestTransition fine (text 4) (some (text 2)) (run moving plain)).1 = .ok () := by
  refine ⟨⟨trivial, (show text 1 ≠ text 0 by decide), (show text 2 ≠ text 0 by decide), (show text 3 ≠ text 1 by decide),
    (show text 4 ≠ text 3 by decide), trivial, trivial⟩, ?_, ?_, ?_, ?_⟩ <;> decide +kernel

/-- The destination of a request need not be registered: here account 9 is not, the query says yes, and once the request is affirmed there is
a record for 9, at the top of the structure; then 9 cannot be registered any more. -/
theorem C83_unknown_destination_violation : ∃ (l : List (Env × Op)) (s : State) (k p : Key), s.start ∧ Along structureOk l s ∧
    (run l s).store.has p = false ∧ queryTransition (run l s) k (some p) = .ok true ∧
    (let t := run [(fine, .request k (some p)), (fine, .resolve (text 1) k true)] (run l s);
      (infoOf t.store k).referrer = some p ∧ (infoOf t.store p).referrer = none ∧ (infoOf t.store p).status = 1 ∧
      (register fine p (text 0) true t).1 = .err) := by
  refine ⟨moving.dropLast, plain, text 3, text 9, rfl, ?_, ?_, ?_, ?_⟩
  · exact ⟨trivial, (show text 1 ≠ text 0 by decide), (show text 2 ≠ text 0 by decide), (show text 3 ≠ text 1 by decide),
      (show text 4 ≠ text 3 by decide), trivial⟩
  all_goals decide +kernel

/-- The subject of a request need not be registered: here account 9 is not, its request is accepted and can be resolved by nobody, and
while there is a record for it, it cannot be registered. -/
theorem C83_unknown_subject_violation : ∃ (l : List (Env × Op)) (s : State) (k p : Key), s.start ∧ Along structureOk l s ∧
    (run l s).store.has k = false ∧ queryTransition (run l s) k (some p) = .ok true ∧
    (let t := run [(fine, .request k (some p))] (run l s);
      (infoOf t.store k).transition = some p ∧ (register fine k (text 0) true t).1 = .err ∧
      ∀ e g b, step e (.resolve g k b) t = t) := by
  refine ⟨moving.dropLast, plain, text 9, text 2, rfl, ?_, ?_, ?_, ?_, ?_, ?_⟩
  · exact ⟨trivial, (show text 1 ≠ text 0 by decide), (show text 2 ≠ text 0 by decide), (show text 3 ≠ text 1 by decide),
      (show text 4 ≠ text 3 by decide), trivial⟩
  · decide +kernel
  · decide +kernel
  · decide +kernel
  · decide +kernel
  · intro e g b
    refine C27_resolver e g _ b _ ?_
    have : (infoOf (run [(fine, .request (text 9) (some (text 2)))] (run moving.dropLast plain)).store (text 9)).referrer = none := by decide +kernel
    rw [this]
    simp

end Verif.Referral
