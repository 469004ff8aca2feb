import Verif.Noding.Queue
import Verif.Noding.Power
import Mathlib.Data.List.Nodup
import Mathlib.Data.List.Perm.Subperm

/-! What one selection of validators (`GatherValidatorUpdates`) does, as a table of rows. -/
namespace Verif.Noding
open Verif.Util

/-- What is assumed of `sort.Slice` with the comparison of keeper/keeper.go:397-402: a permutation in which no element should
precede an earlier one. -/
structure SortOk (sort : List (Addr × Info) → List (Addr × Info)) : Prop where
  perm : ∀ l, (sort l).Perm l
  sorted : ∀ l, (sort l).Pairwise fun x y => y.2.score < x.2.score ∨ (y.2.score = x.2.score ∧ y.2.okBlocks ≤ x.2.okBlocks)

/-- The outcome for one active validator: the record before, the power (none = not chosen), the lottery number afterwards. -/
structure Row where
  acc : Addr
  info : Info
  power : Option Int
  no : Nat

/-- The updates sent for a validator whose record was `i` and whose new power is `o`. -/
def contrib (i : Info) : Option Int → List Upd
  | none => if i.lastPower ≠ 0 then [⟨i.lastPubKey, 0⟩] else []
  | some p => (if i.pubKey ≠ i.lastPubKey ∧ i.lastPubKey ≠ 0 then [⟨i.lastPubKey, 0⟩] else []) ++
      (if i.pubKey ≠ i.lastPubKey ∨ i.lastPower ≠ p then [⟨i.pubKey, p⟩] else [])

/-- The record afterwards. -/
def settle (i : Info) (o : Option Int) (n : Nat) : Info :=
  { i with lastPower := o.getD 0, lastPubKey := if o.isSome then i.pubKey else 0, lotteryNo := n }

/-- No power without a key and vice versa. -/
def Clean (i : Info) : Prop := i.lastPower = 0 ↔ i.lastPubKey = 0

/-- Effect of one step of the selection loops. -/
structure StepOk (w : Work) (r : Addr × Info) (o : Option Int) (n : Nat) (w' : Work) : Prop where
  out : w'.out = w.out ++ contrib r.2 o
  records : w'.s.records = w.s.records.set r.1 (settle r.2 o n)
  params : w'.s.params = w.s.params
  proposers : w'.s.proposers = w.s.proposers
  operators : w'.s.operators = w.s.operators
  gen : match o with
    | some p => w.gen.next? w.s.params.maxValidators w.s.params.votingPower r.2.score = some (p, w'.gen)
    | none => w'.gen = w.gen
  linked : Linked w.s → Linked w'.s

theorem key?_some {k k' : PubKey} (h : key? k = some k') : k ≠ 0 ∧ k' = k := by
  unfold key? at h
  split at h
  · simp at h
  · rename_i h0; simp only [Option.some.injEq] at h; exact ⟨h0, h.symm⟩

theorem leaveQueue_no (q : KV Nat Addr) (i : Info) : (leaveQueue q i).2.lotteryNo = 0 := by
  unfold leaveQueue lotteryExclude
  split
  · rfl
  · rename_i h; simpa using h

theorem settle_same {i : Info} {p : Int} {n : Nat} (h1 : i.pubKey = i.lastPubKey) (h2 : i.lastPower = p) (h3 : i.lotteryNo = n) :
    settle i (some p) n = i := by
  cases i; simp_all [settle]

theorem topStep_ok {w w' : Work} {r : Addr × Info} (hr : w.s.records.get r.1 = some r.2) (h : topStep w r = some w') :
    ∃ p, StepOk w r (some p) 0 w' := by
  unfold topStep at h
  dsimp only at h
  split at h
  · simp at h
  rename_i hk
  simp only [Option.bind_eq_bind, Option.bind_eq_some_iff] at h
  obtain ⟨⟨p, g⟩, hg, h⟩ := h
  dsimp only at h
  refine ⟨p, ?_⟩
  split at h
  · rename_i hupd
    simp only [Option.bind_eq_some_iff, Option.some.injEq] at h
    obtain ⟨s, hs, rfl⟩ := h
    obtain ⟨i, hi, rfl⟩ := update_eq.1 hs
    dsimp only at hi
    rw [hr] at hi; cases hi
    refine ⟨?_, ?_, rfl, rfl, rfl, hg, ?_⟩
    · simp only [contrib, List.append_assoc]
      congr 2
      · simp
      · simp
    · dsimp only
      rw [leaveQueue_no]; rfl
    · intro hl
      refine hl.leave (a := r.1) (j := { r.2 with lastPower := p, lastPubKey := r.2.pubKey }) (no_eq hr).symm ?_ ?_
      · dsimp only
        unfold leaveQueue lotteryExclude
        dsimp only
        split <;> rfl
      · dsimp only
        unfold leaveQueue lotteryExclude
        dsimp only
        split <;> rfl
  · rename_i hupd
    simp only [Option.some.injEq] at h
    subst h
    simp only [ne_eq, Bool.or_eq_true, decide_eq_true_eq, not_or, not_not] at hupd
    obtain ⟨⟨h1, h2⟩, h3⟩ := hupd
    have e1 : settle r.2 (some p) 0 = r.2 := settle_same h1 h2 h3
    refine ⟨?_, ?_, rfl, rfl, rfl, hg, id⟩
    · simp [contrib, h1, h2]
    · rw [e1]; exact (KV.set_get_eq hr).symm

/-- The place of a validator outside the top: chosen exactly if its number is among the first; newcomers go to the end. -/
def RestCond (last : Nat) (w : Work) (x : Row) : Prop :=
  ((x.info.lotteryNo ≠ 0 ∧ x.info.lotteryNo ≤ last) → x.power.isSome = true) ∧
  (¬ (x.info.lotteryNo ≠ 0 ∧ x.info.lotteryNo ≤ last) → x.power = none) ∧
  (x.info.lotteryNo ≠ 0 → x.no = x.info.lotteryNo) ∧
  (x.info.lotteryNo = 0 → x.no ≠ 0 ∧ ∀ n ∈ w.s.queue.keys, n < x.no)

theorem restStep_ok {last : Nat} {w w' : Work} {r : Addr × Info} (hr : w.s.records.get r.1 = some r.2) (hc : Clean r.2)
    (ha : r.2.isActive = true) (h : restStep last w r = some w') :
    ∃ o n, StepOk w r o n w' ∧ RestCond last w ⟨r.1, r.2, o, n⟩ ∧ ∀ n ∈ w.s.queue.keys, n ∈ w'.s.queue.keys := by
  unfold restStep at h
  dsimp only at h
  split at h
  · rename_i hl
    simp only [Option.bind_eq_bind, Option.bind_eq_some_iff] at h
    obtain ⟨⟨p, g⟩, hg, h⟩ := h
    dsimp only at h
    have hcond : RestCond last w ⟨r.1, r.2, some p, r.2.lotteryNo⟩ :=
      ⟨fun _ => rfl, fun hn => absurd hl hn, fun _ => rfl, fun h0 => absurd h0 hl.1⟩
    split at h
    · rename_i hupd
      simp only [Option.bind_eq_some_iff, Option.some.injEq] at h
      obtain ⟨k, hk, s, hs, rfl⟩ := h
      obtain ⟨hk0, rfl⟩ := key?_some hk
      obtain ⟨i, hi, rfl⟩ := update_eq.1 hs
      rw [hr] at hi; cases hi
      refine ⟨some p, r.2.lotteryNo, ⟨?_, rfl, rfl, rfl, rfl, hg, ?_⟩, hcond, fun n hn => hn⟩
      · simp only [contrib, List.append_assoc]
        congr 1
        simp only [ne_eq, Bool.or_eq_true, decide_eq_true_eq] at hupd
        rw [if_pos hupd]
        congr 1
        simp
      · intro hlk
        refine hlk.keep (a := r.1) (j := { r.2 with lastPower := p, lastPubKey := r.2.pubKey }) rfl rfl (no_eq hr).symm ?_
        intro _; exact ha
    · rename_i hupd
      simp only [Option.some.injEq] at h
      subst h
      simp only [ne_eq, Bool.or_eq_true, decide_eq_true_eq, not_or, not_not] at hupd
      obtain ⟨h1, h2⟩ := hupd
      have e1 : settle r.2 (some p) r.2.lotteryNo = r.2 := settle_same h1 h2 rfl
      refine ⟨some p, r.2.lotteryNo, ⟨?_, ?_, rfl, rfl, rfl, hg, id⟩, hcond, fun n hn => hn⟩
      · simp [contrib, h1, h2]
      · rw [e1]; exact (KV.set_get_eq hr).symm
  · rename_i hl
    simp only [Option.bind_eq_bind, Option.bind_eq_some_iff] at h
    obtain ⟨gone, hgone, h⟩ := h
    have hgone' : gone = contrib r.2 none := by
      unfold removal? at hgone
      unfold contrib
      split at hgone
      · rename_i h0
        rw [if_pos h0]
        cases hk : key? r.2.lastPubKey with
        | none => simp [hk] at hgone
        | some k =>
          simp only [hk, Option.map_some, Option.some.injEq] at hgone
          rw [← hgone, (key?_some hk).2]
      · rename_i h0
        rw [if_neg h0]
        simp only [Option.some.injEq] at hgone
        exact hgone.symm
    split at h
    · rename_i hupd
      simp only [Option.bind_eq_some_iff, Option.some.injEq] at h
      obtain ⟨s, hs, rfl⟩ := h
      obtain ⟨i, hi, rfl⟩ := update_eq.1 hs
      dsimp only at hi
      rw [hr] at hi; cases hi
      by_cases h0 : r.2.lotteryNo = 0
      · simp only [if_pos h0]
        refine ⟨none, nextNo w.s.queue, ⟨by rw [hgone'], rfl, rfl, rfl, rfl, rfl, ?_⟩, ⟨fun hn => absurd hn hl, fun _ => rfl, fun hn => absurd h0 hn, fun _ => ⟨nextNo_pos _, fun n hn => lt_nextNo hn⟩⟩, ?_⟩
        · intro hlk
          exact hlk.join (a := r.1) (j := settle r.2 none (nextNo w.s.queue)) (by rw [no_eq hr, h0]) ha rfl rfl rfl
        · intro n hn
          obtain ⟨v, hv⟩ := KV.mem_keys.1 hn
          refine KV.mem_keys.2 ?_
          simp only [lotteryAddNew, KV.get_set]
          by_cases hne : n = nextNo w.s.queue
          · exact ⟨r.1, by rw [if_pos hne]⟩
          · exact ⟨v, by rw [if_neg hne]; exact hv⟩
      · simp only [if_neg h0]
        refine ⟨none, r.2.lotteryNo, ⟨by rw [hgone'], rfl, rfl, rfl, rfl, rfl, ?_⟩, ⟨fun hn => absurd hn hl, fun _ => rfl, fun _ => rfl, fun hn => absurd hn h0⟩, fun n hn => hn⟩
        intro hlk
        exact hlk.keep (a := r.1) (j := settle r.2 none r.2.lotteryNo) rfl rfl (no_eq hr).symm (fun _ => ha)
    · rename_i hupd
      simp only [Option.some.injEq] at h
      subst h
      simp only [ne_eq, not_or, not_not] at hupd
      have e1 : settle r.2 none r.2.lotteryNo = r.2 := by
        unfold settle
        simp only [Option.getD_none, Option.isSome_none, Bool.false_eq_true, if_false]
        rw [← hc.1 hupd.1, ← hupd.1]
      refine ⟨none, r.2.lotteryNo, ⟨by rw [hgone'], ?_, rfl, rfl, rfl, rfl, id⟩, ⟨fun hn => absurd hn hl, fun _ => rfl, fun _ => rfl, fun hn => absurd hn hupd.2⟩, fun n hn => hn⟩
      rw [e1]; exact (KV.set_get_eq hr).symm

/-! ## Whole loops -/

def Row.pair (x : Row) : Addr × Info := (x.acc, x.info)

/-- Effect of a loop. -/
structure RowsOk (w : Work) (l : List (Addr × Info)) (rows : List Row) (w' : Work) : Prop where
  pairs : rows.map Row.pair = l
  out : w'.out = w.out ++ rows.flatMap fun x => contrib x.info x.power
  other : ∀ b, b ∉ l.map Prod.fst → w'.s.records.get b = w.s.records.get b
  row : ∀ x ∈ rows, w'.s.records.get x.acc = some (settle x.info x.power x.no)
  params : w'.s.params = w.s.params
  proposers : w'.s.proposers = w.s.proposers
  operators : w'.s.operators = w.s.operators
  gen : assign? w.s.params.maxValidators w.s.params.votingPower w.gen ((rows.filter fun x => x.power.isSome).map fun x => x.info.score)
    = some (rows.filterMap Row.power, w'.gen)
  linked : Linked w.s → Linked w'.s

theorem fold_rows {step : Work → Addr × Info → Option Work} {cond : Work → Row → Prop} {good : Addr × Info → Prop}
    (hstep : ∀ w r w', good r → w.s.records.get r.1 = some r.2 → step w r = some w' →
      ∃ o n, StepOk w r o n w' ∧ cond w ⟨r.1, r.2, o, n⟩ ∧ ∀ x, cond w' x → cond w x) :
    ∀ (l : List (Addr × Info)) (w w' : Work), (l.map Prod.fst).Nodup → (∀ r ∈ l, good r ∧ w.s.records.get r.1 = some r.2) →
      foldOpt step w l = some w' → ∃ rows, RowsOk w l rows w' ∧ ∀ x ∈ rows, cond w x := by
  intro l
  induction l with
  | nil =>
    intro w w' _ _ h
    simp only [foldOpt, Option.some.injEq] at h
    subst h
    exact ⟨[], ⟨rfl, by simp, fun _ _ => rfl, by simp, rfl, rfl, rfl, rfl, id⟩, by simp⟩
  | cons r l ih =>
    intro w w' hnd hl h
    obtain ⟨w1, h1, h2⟩ := foldOpt_cons.1 h
    obtain ⟨hg, hr⟩ := hl r (List.mem_cons_self ..)
    obtain ⟨o, n, hs, hc, hher⟩ := hstep w r w1 hg hr h1
    simp only [List.map_cons, List.nodup_cons] at hnd
    obtain ⟨rows, q, qc⟩ := ih w1 w' hnd.2 (by
      intro x hx
      refine ⟨(hl x (List.mem_cons_of_mem _ hx)).1, ?_⟩
      have hne : x.1 ≠ r.1 := fun he => hnd.1 (he ▸ List.mem_map_of_mem hx)
      rw [hs.records, KV.get_set_ne _ _ hne]
      exact (hl x (List.mem_cons_of_mem _ hx)).2) h2
    refine ⟨⟨r.1, r.2, o, n⟩ :: rows, ⟨?_, ?_, ?_, ?_, ?_, ?_, ?_, ?_, fun hk => q.linked (hs.linked hk)⟩, ?_⟩
    · simp only [List.map_cons, q.pairs, Row.pair]
    · rw [q.out, hs.out]; simp
    · intro b hb
      simp only [List.map_cons, List.mem_cons, not_or] at hb
      rw [q.other b hb.2, hs.records, KV.get_set_ne _ _ hb.1]
    · intro x hx
      rcases List.mem_cons.1 hx with rfl | hx
      · rw [q.other _ hnd.1, hs.records, KV.get_set_self]
      · exact q.row x hx
    · rw [q.params, hs.params]
    · rw [q.proposers, hs.proposers]
    · rw [q.operators, hs.operators]
    · have hgen := hs.gen
      have := q.gen
      rw [hs.params] at this
      cases o with
      | none =>
        dsimp only at hgen
        rw [hgen] at this
        simpa [List.filter_cons] using this
      | some p =>
        dsimp only at hgen
        simp [assign?, hgen, this]
    · intro x hx
      rcases List.mem_cons.1 hx with rfl | hx
      · exact hc
      · exact hher x (qc x hx)

/-- Clearing the last power and key. -/
def Info.clear (i : Info) : Info := { i with lastPower := 0, lastPubKey := 0 }

/-- A record after the scan of lines 342-375. -/
def Info.scanned (i : Info) : Info := if i.isActive then i else i.clear

theorem scan_ok : ∀ (l : List (Addr × Info)) (x y : State × List Upd), (l.map Prod.fst).Nodup →
    (∀ r ∈ l, Clean r.2 ∧ x.1.records.get r.1 = some r.2) → foldOpt scanStep x l = some y →
    y.2 = x.2 ++ (l.filter fun r => !r.2.isActive).flatMap (fun r => contrib r.2 none) ∧
    (∀ b, b ∉ l.map Prod.fst → y.1.records.get b = x.1.records.get b) ∧
    (∀ r ∈ l, y.1.records.get r.1 = some r.2.scanned) ∧
    y.1.params = x.1.params ∧ y.1.proposers = x.1.proposers ∧ y.1.queue = x.1.queue ∧
    (∀ r ∈ l, r.2.isActive = true → r.2.pubKey ≠ 0) := by
  intro l
  induction l with
  | nil =>
    intro x y _ _ h
    simp only [foldOpt, Option.some.injEq] at h
    subst h
    simp
  | cons r l ih =>
    intro x y hnd hl h
    obtain ⟨x1, h1, h2⟩ := foldOpt_cons.1 h
    obtain ⟨hc, hr⟩ := hl r (List.mem_cons_self ..)
    simp only [List.map_cons, List.nodup_cons] at hnd
    have hs : x1.2 = x.2 ++ (if r.2.isActive then [] else contrib r.2 none) ∧ x1.1.records = x.1.records.set r.1 r.2.scanned ∧
        x1.1.params = x.1.params ∧ x1.1.proposers = x.1.proposers ∧ x1.1.queue = x.1.queue ∧ (r.2.isActive = true → r.2.pubKey ≠ 0) := by
      unfold scanStep at h1
      split at h1
      · rename_i ha
        simp only [Option.bind_eq_bind, Option.bind_eq_some_iff, Option.some.injEq] at h1
        obtain ⟨k, hk, rfl⟩ := h1
        refine ⟨by simp [ha], ?_, rfl, rfl, rfl, fun _ => (key?_some hk).1⟩
        simp only [Info.scanned, ha, if_true]
        exact (KV.set_get_eq hr).symm
      · rename_i ha
        split at h1
        · rename_i h0
          simp only [Option.bind_eq_bind, Option.bind_eq_some_iff, Option.some.injEq] at h1
          obtain ⟨k, hk, s, hs, rfl⟩ := h1
          obtain ⟨i, hi, rfl⟩ := update_eq.1 hs
          rw [hr] at hi; cases hi
          refine ⟨?_, ?_, rfl, rfl, rfl, fun h => absurd h ha⟩
          · rw [if_neg ha]; simp only [contrib, if_pos h0, (key?_some hk).2]
          · simp only [Info.scanned, if_neg ha]; rfl
        · rename_i h0
          simp only [Option.some.injEq] at h1
          subst h1
          simp only [ne_eq, not_not] at h0
          refine ⟨?_, ?_, rfl, rfl, rfl, fun h => absurd h ha⟩
          · rw [if_neg ha]; simp [contrib, h0]
          · have : r.2.scanned = r.2 := by
              simp only [Info.scanned, if_neg ha, Info.clear]
              have h3 := hc.1 h0
              revert h0 h3
              cases r.2
              rintro h0 h3
              dsimp only at h0 h3
              rw [h0, h3]
            rw [this]; exact (KV.set_get_eq hr).symm
    obtain ⟨s1, s2, s3, s4, s5, s6⟩ := hs
    obtain ⟨q1, q2, q3, q4, q5, q6, q7⟩ := ih x1 y hnd.2 (by
      intro z hz
      refine ⟨(hl z (List.mem_cons_of_mem _ hz)).1, ?_⟩
      have hne : z.1 ≠ r.1 := fun he => hnd.1 (he ▸ List.mem_map_of_mem hz)
      rw [s2, KV.get_set_ne _ _ hne]
      exact (hl z (List.mem_cons_of_mem _ hz)).2) h2
    refine ⟨?_, ?_, ?_, by rw [q4, s3], by rw [q5, s4], by rw [q6, s5], ?_⟩
    · rw [q1, s1]
      by_cases ha : r.2.isActive = true
      · simp [ha]
      · simp [ha]
    · intro b hb
      simp only [List.map_cons, List.mem_cons, not_or] at hb
      rw [q2 b hb.2, s2, KV.get_set_ne _ _ hb.1]
    · intro z hz
      rcases List.mem_cons.1 hz with rfl | hz
      · rw [q2 _ hnd.1, s2, KV.get_set_self]
      · exact q3 z hz
    · intro z hz
      rcases List.mem_cons.1 hz with rfl | hz
      · exact s6
      · exact q7 z hz

theorem dedupe_pointerEq (l : List Upd) : dedupe pointerEq l = l := by
  have h1 : ∀ (x : Upd) (l : List Upd), replaceFirst pointerEq x l = l ++ [x] := by
    intro x l
    induction l with
    | nil => rfl
    | cons y l ih => simp [replaceFirst, pointerEq, ih]
  have h2 : ∀ (l acc : List Upd), l.foldl (fun acc x => replaceFirst pointerEq x acc) acc = acc ++ l := by
    intro l
    induction l with
    | nil => simp
    | cons x l ih => intro acc; rw [List.foldl_cons, ih, h1, List.append_assoc, List.singleton_append]
  exact h2 l []

theorem assign?_append {max : Nat} {d : Distribution} (l m : List Int) : ∀ {g g1 g2 : Gen} {p q : List Int},
    assign? max d g l = some (p, g1) → assign? max d g1 m = some (q, g2) → assign? max d g (l ++ m) = some (p ++ q, g2) := by
  induction l with
  | nil =>
    intro g g1 g2 p q h1 h2
    simp only [assign?, Option.some.injEq, Prod.mk.injEq] at h1
    obtain ⟨rfl, rfl⟩ := h1
    exact h2
  | cons x l ih =>
    intro g g1 g2 p q h1 h2
    simp only [assign?, Option.bind_eq_bind, Option.bind_eq_some_iff, Option.some.injEq, Prod.mk.injEq] at h1
    obtain ⟨⟨a, g'⟩, ha, ⟨ps, g''⟩, hb, rfl, rfl⟩ := h1
    have := ih hb h2
    simp [assign?, ha, this]

/-- The lottery part of a state after the top validators have been taken out of the queue. -/
structure Outcome (e : Env) (s t : State) (u : List Upd) (top rest : List Row) (mid : State) : Prop where
  pairs : (top ++ rest).map Row.pair = e.sort (actives s)
  size : top.length = (quota s.params (actives s).length).1
  out : u = ((s.records.entries.filter fun r => !r.2.isActive).flatMap fun r => contrib r.2 none) ++
    (top ++ rest).flatMap fun x => contrib x.info x.power
  other : ∀ b, b ∉ (top ++ rest).map Row.acc → t.records.get b = (s.records.get b).map Info.clear
  row : ∀ x ∈ top ++ rest, t.records.get x.acc = some (settle x.info x.power x.no)
  powers : ∃ g, assign? s.params.maxValidators s.params.votingPower {} (((top ++ rest).filter fun x => x.power.isSome).map fun x => x.info.score)
    = some ((top ++ rest).filterMap Row.power, g)
  params : t.params = s.params
  proposers : t.proposers = s.proposers
  keys : ∀ x ∈ top ++ rest, x.info.pubKey ≠ 0
  ofTop : ∀ x ∈ top, x.power.isSome = true ∧ x.no = 0
  ofRest : ∀ x ∈ rest, RestCond (lotteryLastNo mid.queue (quota s.params (actives s).length).2) ⟨mid, {}, []⟩ x
  midLinked : Linked s → Linked mid
  midNo : ∀ b, no mid b = if b ∈ top.map Row.acc then 0 else no s b
  linked : Linked s → Linked t

theorem quota_fst_le (p : Params) (n : Nat) : (quota p n).1 ≤ n ∧ (quota p n).1 ≤ p.maxValidators ∧ (quota p n).2 ≤ p.lotteryValidators := by
  unfold quota
  split
  · rename_i h
    dsimp only
    split <;> omega
  · dsimp only; omega

theorem gather_outcome {e : Env} {s t : State} {u : List Upd} (hsort : SortOk e.sort) (hclean : ∀ a i, s.records.get a = some i → Clean i)
    (h : gather e s = some (t, u)) : ∃ top rest mid, Outcome e s t u top rest mid := by
  simp only [gather, Option.bind_eq_bind, Option.bind_eq_some_iff, Option.some.injEq, Prod.mk.injEq] at h
  obtain ⟨sc, h1, w1, h2, w2, h3, rfl, rfl⟩ := h
  obtain ⟨c1, c2, c3, c4, c5, c6, c7⟩ := scan_ok _ _ _ s.records.keys_nodup
    (fun r hr => ⟨hclean r.1 r.2 (KV.mem_entries.1 hr), KV.mem_entries.1 hr⟩) h1
  have hperm := hsort.perm (actives s)
  have hsub : (actives s).Sublist s.records.entries := List.filter_sublist
  have hmem : ∀ r ∈ e.sort (actives s), s.records.get r.1 = some r.2 ∧ r.2.isActive = true := by
    intro r hr
    have := hperm.mem_iff.1 hr
    simp only [actives, List.mem_filter] at this
    exact ⟨KV.mem_entries.1 this.1, this.2⟩
  have hnd : ((e.sort (actives s)).map Prod.fst).Nodup := by
    rw [(hperm.map Prod.fst).nodup_iff]
    exact (hsub.map Prod.fst).nodup s.records.keys_nodup
  have hcur : ∀ r ∈ e.sort (actives s), sc.1.records.get r.1 = some r.2 := by
    intro r hr
    obtain ⟨hg, ha⟩ := hmem r hr
    have := c3 r (KV.mem_entries.2 hg)
    simpa [Info.scanned, ha] using this
  have hlen : (e.sort (actives s)).length = (actives s).length := hperm.length_eq
  rw [hlen] at h2 h3
  generalize hn : quota s.params (actives s).length = n at *
  have hnl : n.1 ≤ (actives s).length := by
    have := (quota_fst_le s.params (actives s).length).1
    rw [hn] at this; exact this
  have hsplit : (e.sort (actives s)).take n.1 ++ (e.sort (actives s)).drop n.1 = e.sort (actives s) := List.take_append_drop ..
  generalize hA : e.sort (actives s) = A at *
  have hnd' := hnd
  rw [← hsplit, List.map_append, List.nodup_append] at hnd'
  obtain ⟨hndt, hndr, hdis⟩ := hnd'
  obtain ⟨top, T, Tc⟩ := fold_rows (good := fun _ => True) (cond := fun _ x => x.power.isSome = true ∧ x.no = 0)
    (fun w r w' _ hr hs => by
      obtain ⟨p, hp⟩ := topStep_ok hr hs
      exact ⟨some p, 0, hp, ⟨rfl, rfl⟩, fun _ hx => hx⟩)
    _ _ _ hndt (fun r hr => ⟨trivial, hcur r (List.mem_of_mem_take hr)⟩) h2
  obtain ⟨rest, R, Rc⟩ := fold_rows (good := fun r => Clean r.2 ∧ r.2.isActive = true) (cond := RestCond (lotteryLastNo w1.s.queue n.2))
    (fun w r w' hg hr hs => by
      obtain ⟨o, m, q1, q2, q3⟩ := restStep_ok hr hg.1 hg.2 hs
      refine ⟨o, m, q1, q2, ?_⟩
      rintro x ⟨x1, x2, x3, x4⟩
      exact ⟨x1, x2, x3, fun h0 => ⟨(x4 h0).1, fun n hn => (x4 h0).2 n (q3 n hn)⟩⟩)
    _ _ _ hndr (fun r hr => by
      have hr' := List.mem_of_mem_drop hr
      obtain ⟨hg, ha⟩ := hmem r hr'
      refine ⟨⟨hclean _ _ hg, ha⟩, ?_⟩
      rw [T.other r.1 ?_]
      · exact hcur r hr'
      · intro hin
        exact hdis r.1 hin r.1 (List.mem_map_of_mem hr) rfl) h3
  have hacc : ∀ l : List Row, l.map Row.acc = (l.map Row.pair).map Prod.fst := by intro l; simp [Row.pair, Function.comp_def]
  have htop : top.map Row.acc = (A.take n.1).map Prod.fst := by rw [hacc, T.pairs]
  have hrest : rest.map Row.acc = (A.drop n.1).map Prod.fst := by rw [hacc, R.pairs]
  have hscLinked : Linked s → Linked sc.1 := by
    intro hl
    have hno : ∀ b, no sc.1 b = no s b := by
      intro b
      unfold no
      cases hg : s.records.get b with
      | none => rw [c2 b (fun hb => by obtain ⟨v, hv⟩ := KV.mem_keys.1 hb; rw [hg] at hv; cases hv), hg]
      | some i =>
        rw [c3 (b, i) (KV.mem_entries.2 hg)]
        simp only [Option.map_some, Option.getD_some, Info.scanned]
        split <;> rfl
    refine ⟨fun m a hg => by rw [hno]; exact hl.fwd m a (c6 ▸ hg), fun a h0 => by rw [hno] at h0 ⊢; rw [c6]; exact hl.bwd a h0, ?_⟩
    intro a i hi h0
    cases hg : s.records.get a with
    | none =>
      rw [c2 a (fun hb => by obtain ⟨v, hv⟩ := KV.mem_keys.1 hb; rw [hg] at hv; cases hv), hg] at hi; cases hi
    | some j =>
      rw [c3 (a, j) (KV.mem_entries.2 hg)] at hi
      simp only [Option.some.injEq] at hi
      subst hi
      have e1 : j.scanned.isActive = j.isActive := by unfold Info.scanned; split <;> rfl
      have e2 : j.scanned.lotteryNo = j.lotteryNo := by unfold Info.scanned; split <;> rfl
      rw [e1]; exact hl.active a j hg (e2 ▸ h0)
  refine ⟨top, rest, w1.s, ⟨?_, ?_, ?_, ?_, ?_, ?_, ?_, ?_, ?_, Tc, ?_, fun hl => T.linked (hscLinked hl), ?_, fun hl => R.linked (T.linked (hscLinked hl))⟩⟩
  · rw [List.map_append, T.pairs, R.pairs, hsplit, hA]
  · have := congrArg List.length T.pairs
    rw [List.length_map, List.length_take, hlen] at this
    rw [hn]; omega
  · rw [dedupe_pointerEq, R.out, T.out, c1]
    simp
  · intro b hb
    rw [List.map_append, List.mem_append, not_or, htop, hrest] at hb
    rw [R.other b hb.2, T.other b hb.1]
    cases hg : s.records.get b with
    | none =>
      dsimp only
      rw [c2 b (fun hb => by obtain ⟨v, hv⟩ := KV.mem_keys.1 hb; rw [hg] at hv; cases hv), hg]; rfl
    | some i =>
      dsimp only
      rw [c3 (b, i) (KV.mem_entries.2 hg)]
      have hna : i.isActive ≠ true := by
        intro ha
        have : (b, i) ∈ A := by
          rw [hperm.mem_iff]
          simp only [actives, List.mem_filter]
          exact ⟨KV.mem_entries.2 hg, ha⟩
        rw [← hsplit, List.mem_append] at this
        rcases this with h | h
        · exact hb.1 (List.mem_map_of_mem (f := Prod.fst) h)
        · exact hb.2 (List.mem_map_of_mem (f := Prod.fst) h)
      simp [Info.scanned, hna]
  · intro x hx
    rcases List.mem_append.1 hx with hx | hx
    · rw [R.other x.acc ?_, T.row x hx]
      intro hin
      have : x.acc ∈ (A.take n.1).map Prod.fst := by rw [← htop]; exact List.mem_map_of_mem hx
      exact hdis x.acc this x.acc hin rfl
    · exact R.row x hx
  · have g1 := T.gen
    have g2 := R.gen
    rw [T.params] at g2
    dsimp only at g1 g2
    rw [c4] at g1 g2
    refine ⟨w2.gen, ?_⟩
    rw [List.filter_append, List.map_append, List.filterMap_append]
    exact assign?_append _ _ g1 g2
  · rw [R.params, T.params, c4]
  · rw [R.proposers, T.proposers, c5]
  · intro x hx
    have hxA : x.pair ∈ A := by
      rw [← hsplit, ← T.pairs, ← R.pairs, ← List.map_append]
      exact List.mem_map_of_mem hx
    obtain ⟨hg, ha⟩ := hmem _ hxA
    exact c7 x.pair (KV.mem_entries.2 hg) ha
  · intro x hx
    rw [hn]
    exact Rc x hx
  · intro b
    split
    · rename_i hb
      obtain ⟨x, hx, rfl⟩ := List.mem_map.1 hb
      rw [no_eq (T.row x hx)]
      exact (Tc x hx).2
    · rename_i hb
      rw [htop] at hb
      unfold no
      rw [T.other b hb]
      cases hg : s.records.get b with
      | none => rw [c2 b (fun hb => by obtain ⟨v, hv⟩ := KV.mem_keys.1 hb; rw [hg] at hv; cases hv), hg]
      | some i =>
        rw [c3 (b, i) (KV.mem_entries.2 hg)]
        simp only [Option.map_some, Option.getD_some, Info.scanned]
        split <;> rfl

end Verif.Noding
