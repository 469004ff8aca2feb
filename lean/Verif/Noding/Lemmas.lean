import Verif.Noding.Model
import Mathlib.Data.List.Basic

/-! Operations as one type, executions, and what the operations leave alone in a record. -/
namespace Verif.Noding
open Verif.Util

/-- Everything that can happen to the module: messages (`switchOn`, `switchOff`, `unjail`), callbacks of the referral module
(`statusUpdate`, `stakeChanged`), block start (`proposed`, `tick`, `stroke`, `byzantine`), block end (`gather`), voting
(`addStaff`, `removeStaff`, `amnesty`, `setParams`). -/
inductive Op
  | switchOn (a : Addr) (k : PubKey)
  | switchOff (a : Addr)
  | unjail (a : Addr)
  | statusUpdate (a : Addr)
  | stakeChanged (a : Addr)
  | proposed (a : Addr)
  | tick (a : Addr)
  | stroke (a : Addr)
  | byzantine (a : Addr)
  | addStaff (a : Addr)
  | removeStaff (a : Addr)
  | amnesty
  | setParams (p : Params)
  | gather
deriving DecidableEq

/-- The state after an operation; a failed one leaves the state as it was. -/
def Op.run (e : Env) (s : State) : Op → State
  | .switchOn a k => (Noding.switchOn e s a k).getD s
  | .switchOff a => (Noding.switchOff s a).getD s
  | .unjail a => (Noding.unjail e s a).getD s
  | .statusUpdate a => (onStatusUpdate e s a).getD s
  | .stakeChanged a => (onStakeChanged e s a).getD s
  | .proposed a => (markProposed e s a).getD s
  | .tick a => (markTick s a).getD s
  | .stroke a => (markStroke e s a).getD s
  | .byzantine a => (markByzantine s a).getD s
  | .addStaff a => addToStaff s a
  | .removeStaff a => removeFromStaff e s a
  | .amnesty => generalAmnesty s
  | .setParams p => (Noding.setParams s p).getD s
  | .gather => ((Noding.gather e s).map Prod.fst).getD s

/-- An execution: a list of operations, each in its own environment. -/
def runs (l : List (Env × Op)) (s : State) : State := l.foldl (fun s x => x.2.run x.1 s) s

@[simp] theorem runs_nil (s : State) : runs [] s = s := rfl
@[simp] theorem runs_cons (x : Env × Op) (l : List (Env × Op)) (s : State) : runs (x :: l) s = runs l (x.2.run x.1 s) := rfl
theorem runs_append (l m : List (Env × Op)) (s : State) : runs (l ++ m) s = runs m (runs l s) := by
  simp [runs, List.foldl_append]

/-- A property kept by every operation of an execution is kept by the execution. -/
theorem runs_keep {P : State → Prop} {l : List (Env × Op)} {s : State}
    (h : ∀ x ∈ l, ∀ s, P s → P (x.2.run x.1 s)) (hs : P s) : P (runs l s) := by
  induction l generalizing s with
  | nil => exact hs
  | cons x l ih =>
    exact ih (fun y hy => h y (List.mem_cons_of_mem _ hy)) (h x (List.mem_cons_self ..) s hs)

/-! ## Folding -/

theorem foldOpt_keep {α β : Type} {f : α → β → Option α} {P : α → Prop} {l : List β}
    (h : ∀ a b c, b ∈ l → P a → f a b = some c → P c) : ∀ {a c : α}, P a → foldOpt f a l = some c → P c := by
  induction l with
  | nil => intro a c ha hc; simp only [foldOpt, Option.some.injEq] at hc; exact hc ▸ ha
  | cons b l ih =>
    intro a c ha hc
    simp only [foldOpt, Option.bind_eq_bind, Option.bind_eq_some_iff] at hc
    obtain ⟨d, hd, hc⟩ := hc
    exact ih (fun a b c hb => h a b c (List.mem_cons_of_mem _ hb)) (h a b d (List.mem_cons_self ..) ha hd) hc

theorem foldOpt_cons {α β : Type} {f : α → β → Option α} {a c : α} {b : β} {l : List β} :
    foldOpt f a (b :: l) = some c ↔ ∃ d, f a b = some d ∧ foldOpt f d l = some c := by
  simp [foldOpt, Option.bind_eq_some_iff]

/-! ## Updates -/

theorem update_eq {s t : State} {a : Addr} {f : KV Nat Addr → Info → KV Nat Addr × Info} :
    update s a f = some t ↔ ∃ i, s.records.get a = some i ∧
      t = { s with records := s.records.set a (f s.queue i).2, queue := (f s.queue i).1 } := by
  simp only [update, Option.bind_eq_bind, Option.bind_eq_some_iff, Option.some.injEq]
  constructor
  · rintro ⟨i, h1, h2⟩; exact ⟨i, h1, h2.symm⟩
  · rintro ⟨i, h1, h2⟩; exact ⟨i, h1, h2.symm⟩

/-- `f` of the record of `b`, whatever else happened. -/
def field {α : Type} (f : Info → α) (s : State) (b : Addr) : Option α := (s.records.get b).map f

/-- The part of a record no selection touches. -/
def Info.core (i : Info) : Info := { i with lastPower := 0, lastPubKey := 0, lotteryNo := 0 }

theorem core_leaveQueue (q : KV Nat Addr) (i : Info) : (leaveQueue q i).2.core = i.core := by
  unfold leaveQueue lotteryExclude; split <;> rfl

theorem core_moveBack (q : KV Nat Addr) (a : Addr) (i : Info) : (moveBack q a i).2.core = i.core := by
  unfold moveBack lotteryDownshift lotteryAddNew lotteryExclude; split <;> rfl

theorem update_records {s t : State} {a : Addr} {f : KV Nat Addr → Info → KV Nat Addr × Info} (h : update s a f = some t) (b : Addr) :
    t.records.get b = if b = a then (s.records.get a).map (fun i => (f s.queue i).2) else s.records.get b := by
  obtain ⟨i, hi, rfl⟩ := update_eq.1 h
  simp only [KV.get_set, hi, Option.map_some]

theorem update_core {s t : State} {a : Addr} {f : KV Nat Addr → Info → KV Nat Addr × Info} (h : update s a f = some t)
    (hf : ∀ q i, (f q i).2.core = i.core) (b : Addr) : field Info.core t b = field Info.core s b := by
  unfold field
  rw [update_records h]
  split
  · rename_i e; subst e
    cases s.records.get b <;> simp [hf]
  · rfl

theorem scanStep_core {x y : State × List Upd} {r : Addr × Info} (h : scanStep x r = some y) (b : Addr) :
    field Info.core y.1 b = field Info.core x.1 b := by
  unfold scanStep at h
  split at h
  · simp only [Option.bind_eq_bind, Option.bind_eq_some_iff, Option.some.injEq] at h
    obtain ⟨k, -, rfl⟩ := h; rfl
  · split at h
    · simp only [Option.bind_eq_bind, Option.bind_eq_some_iff, Option.some.injEq] at h
      obtain ⟨k, -, s, hs, rfl⟩ := h
      exact update_core hs (fun _ _ => rfl) b
    · simp only [Option.some.injEq] at h; rw [h]

theorem topStep_core {x y : Work} {r : Addr × Info} (h : topStep x r = some y) (b : Addr) :
    field Info.core y.s b = field Info.core x.s b := by
  unfold topStep at h
  dsimp only at h
  split at h
  · simp at h
  · simp only [Option.bind_eq_bind, Option.bind_eq_some_iff] at h
    obtain ⟨⟨p, g⟩, -, h⟩ := h
    dsimp only at h
    split at h
    · simp only [Option.bind_eq_some_iff, Option.some.injEq] at h
      obtain ⟨s, hs, rfl⟩ := h
      exact update_core hs (fun _ _ => rfl) b
    · simp only [Option.some.injEq] at h; rw [← h]

theorem restStep_core {n : Nat} {x y : Work} {r : Addr × Info} (h : restStep n x r = some y) (b : Addr) :
    field Info.core y.s b = field Info.core x.s b := by
  unfold restStep at h
  dsimp only at h
  split at h
  · simp only [Option.bind_eq_bind, Option.bind_eq_some_iff] at h
    obtain ⟨⟨p, g⟩, -, h⟩ := h
    dsimp only at h
    split at h
    · simp only [Option.bind_eq_some_iff, Option.some.injEq] at h
      obtain ⟨k, -, s, hs, rfl⟩ := h
      exact update_core hs (fun _ _ => rfl) b
    · simp only [Option.some.injEq] at h; rw [← h]
  · simp only [Option.bind_eq_bind, Option.bind_eq_some_iff] at h
    obtain ⟨o, -, h⟩ := h
    split at h
    · simp only [Option.bind_eq_some_iff, Option.some.injEq] at h
      obtain ⟨s, hs, rfl⟩ := h
      exact (update_core hs (fun _ _ => rfl) b)
    · simp only [Option.some.injEq] at h; rw [← h]

/-- Choosing validators changes nothing in a record but the last power, the last key and the lottery number. -/
theorem gather_core {e : Env} {s t : State} {u : List Upd} (h : gather e s = some (t, u)) (b : Addr) :
    field Info.core t b = field Info.core s b := by
  simp only [gather, Option.bind_eq_bind, Option.bind_eq_some_iff, Option.some.injEq, Prod.mk.injEq] at h
  obtain ⟨sc, h1, w1, h2, w2, h3, rfl, -⟩ := h
  have e1 := foldOpt_keep (P := fun x : State × List Upd => field Info.core x.1 b = field Info.core s b)
    (fun x r y _ hx hy => (scanStep_core hy b).trans hx) rfl h1
  have e2 := foldOpt_keep (P := fun x : Work => field Info.core x.s b = field Info.core s b)
    (fun x r y _ hx hy => (topStep_core hy b).trans hx) e1 h2
  exact foldOpt_keep (P := fun x : Work => field Info.core x.s b = field Info.core s b)
    (fun x r y _ hx hy => (restStep_core hy b).trans hx) e2 h3

/-! ## Amnesty -/

theorem get_foldl_set {f : Info → Info} {l : List (Addr × Info)} : ∀ {m : KV Addr Info},
    (∀ r ∈ l, m.get r.1 = some r.2) → (l.map Prod.fst).Nodup → ∀ b,
    (l.foldl (fun m e => m.set e.1 (f e.2)) m).get b = if b ∈ l.map Prod.fst then (m.get b).map f else m.get b := by
  induction l with
  | nil => intro m _ _ b; simp
  | cons r l ih =>
    intro m h hn b
    simp only [List.map_cons, List.nodup_cons] at hn
    rw [List.foldl_cons, ih ?_ hn.2]
    · simp only [List.map_cons, List.mem_cons, KV.get_set]
      by_cases hb : b = r.1
      · subst hb
        have := h r (List.mem_cons_self ..)
        simp [hn.1, this]
      · simp only [hb, if_false, false_or]
    · intro x hx
      have hne : x.1 ≠ r.1 := by
        intro he; exact hn.1 (he ▸ List.mem_map_of_mem hx)
      rw [KV.get_set_ne _ _ hne]
      exact h x (List.mem_cons_of_mem _ hx)

theorem amnesty_get (s : State) (b : Addr) : (generalAmnesty s).records.get b = (s.records.get b).map Info.amnesty := by
  unfold generalAmnesty
  rw [get_foldl_set (f := Info.amnesty) (fun r hr => KV.mem_entries.1 hr) s.records.keys_nodup]
  split
  · rfl
  · rename_i h
    have : s.records.get b = none := by
      cases hg : s.records.get b with
      | none => rfl
      | some i => exact absurd (KV.mem_keys.2 ⟨i, hg⟩) h
    simp [this]

/-! ## Predicates on records kept by operations -/

/-- The record of `b` exists and satisfies `P`. -/
def Has (P : Info → Prop) (s : State) (b : Addr) : Prop := ∃ i, s.records.get b = some i ∧ P i

theorem Has.update {P : Info → Prop} {s t : State} {a b : Addr} {f : KV Nat Addr → Info → KV Nat Addr × Info}
    (h : update s a f = some t) (hf : ∀ q i, b = a → s.records.get a = some i → P i → P (f q i).2) (hs : Has P s b) : Has P t b := by
  obtain ⟨i, hi, hp⟩ := hs
  obtain ⟨j, hj, rfl⟩ := update_eq.1 h
  by_cases hb : b = a
  · subst hb
    rw [hi] at hj; cases hj
    exact ⟨_, KV.get_set_self .., hf _ _ rfl hi hp⟩
  · exact ⟨i, by simp only [KV.get_set_ne _ _ hb]; exact hi, hp⟩

theorem Has.set {P : Info → Prop} {s : State} {a b : Addr} {j : Info} (m : KV Addr Info) (hm : m = s.records.set a j)
    (hf : ∀ i, b = a → s.records.get a = some i → P i → P j) (hs : Has P s b) : ∃ i, m.get b = some i ∧ P i := by
  obtain ⟨i, hi, hp⟩ := hs
  subst hm
  by_cases hb : b = a
  · subst hb
    exact ⟨_, KV.get_set_self .., hf _ rfl hi hp⟩
  · exact ⟨i, by rw [KV.get_set_ne _ _ hb]; exact hi, hp⟩

theorem Has.getD {P : Info → Prop} {s : State} {b : Addr} {o : Option State} (hs : Has P s b)
    (h : ∀ t, o = some t → Has P t b) : Has P (o.getD s) b := by
  cases o with
  | none => exact hs
  | some t => exact h t rfl

/-- A predicate that looks at the core only. -/
def CoreOnly (P : Info → Prop) : Prop := ∀ i j : Info, i.core = j.core → (P i ↔ P j)

theorem Has.leave {P : Info → Prop} (hc : CoreOnly P) (q : KV Nat Addr) {i : Info} (h : P i) : P (leaveQueue q i).2 :=
  (hc _ _ (core_leaveQueue q i)).2 h

theorem Has.move {P : Info → Prop} (hc : CoreOnly P) (q : KV Nat Addr) (a : Addr) {i : Info} (h : P i) : P (moveBack q a i).2 :=
  (hc _ _ (core_moveBack q a i)).2 h

theorem Has.gather {P : Info → Prop} (hc : CoreOnly P) {e : Env} {s t : State} {u : List Upd} {b : Addr}
    (h : gather e s = some (t, u)) (hs : Has P s b) : Has P t b := by
  obtain ⟨i, hi, hp⟩ := hs
  have := gather_core h b
  simp only [field, hi, Option.map_some] at this
  cases hj : t.records.get b with
  | none => simp [hj] at this
  | some j =>
    simp only [hj, Option.map_some, Option.some.injEq] at this
    exact ⟨j, hj, (hc _ _ this).2 hp⟩

theorem register_get (e : Env) (s : State) (a : Addr) (k : PubKey) (stake : Int) (b : Addr) :
    (register e s a k stake).records.get b = if b = a then some (registered e (s.records.get a) k stake)
      else s.records.get b := by
  simp only [register, KV.get_set]

/-- The facts a successful switch-on rests on. -/
theorem switchOn_some {e : Env} {s t : State} {a : Addr} {k : PubKey} (h : switchOn e s a k = some t) :
    k ≠ 0 ∧ (∀ i, s.records.get a = some i → i.banned = false ∧ i.status = false) ∧
      (∃ o, validatorByKey s k = some o ∧ (o.map Prod.snd).getD false = false) ∧
      ∃ q stake, isQualified e s a = some q ∧ q.1 = true ∧ sdkInt64? q.2 = some stake ∧ t = register e s a k stake := by
  unfold switchOn at h
  split at h
  · simp at h
  rename_i hk
  split at h
  · simp at h
  rename_i hb
  split at h
  · simp at h
  rename_i hs
  simp only [Option.bind_eq_bind, Option.bind_eq_some_iff] at h
  obtain ⟨o, ho, h⟩ := h
  split at h
  · simp at h
  rename_i hact
  simp only [Option.bind_eq_some_iff] at h
  obtain ⟨q, hq, h⟩ := h
  split at h
  · rename_i hq1
    simp only [Option.bind_eq_some_iff, Option.some.injEq] at h
    obtain ⟨stake, hst, rfl⟩ := h
    refine ⟨hk, ?_, ⟨o, ho, by simpa using hact⟩, q, stake, hq, hq1, hst, rfl⟩
    intro i hi
    simp only [hi, Option.map_some, Option.getD_some, Bool.not_eq_true] at hb hs
    exact ⟨hb, hs⟩
  · simp at h

/-- The facts a successful release rests on. -/
theorem unjail_some {e : Env} {s t : State} {a : Addr} (h : unjail e s a = some t) :
    ∃ i q, s.records.get a = some i ∧ i.jailed = true ∧ i.unjailAt ≤ e.height ∧ isQualified e s a = some q ∧
      ((q.1 = true ∧ ∃ stake, sdkInt64? q.2 = some stake ∧
          t = { s with records := s.records.set a ({ i with jailed := false }.updateScore e.log stake) }) ∨
        (q.1 = false ∧ t = { s with records := s.records.set a { i with jailed := false, status := false } })) := by
  simp only [unjail, Option.bind_eq_bind, Option.bind_eq_some_iff] at h
  obtain ⟨i, hi, h⟩ := h
  split at h
  · simp at h
  rename_i hj
  split at h
  · simp at h
  rename_i hh
  simp only [Option.bind_eq_some_iff] at h
  obtain ⟨q, hq, h⟩ := h
  refine ⟨i, q, hi, by simpa using hj, by omega, hq, ?_⟩
  split at h
  · rename_i hq1
    simp only [Option.bind_eq_some_iff, Option.some.injEq] at h
    obtain ⟨stake, hst, rfl⟩ := h
    exact Or.inl ⟨hq1, stake, hst, rfl⟩
  · rename_i hq1
    simp only [Option.some.injEq] at h
    exact Or.inr ⟨by simpa using hq1, h.symm⟩

theorem onStatusUpdate_some {e : Env} {s t : State} {a : Addr} (h : onStatusUpdate e s a = some t) :
    t = s ∨ (isValidator s a = true ∧ (∃ q, isQualified e s a = some q ∧ q.1 = false) ∧ switchOff s a = some t) := by
  unfold onStatusUpdate at h
  split at h
  · rename_i hv
    simp only [Option.bind_eq_bind, Option.bind_eq_some_iff] at h
    obtain ⟨q, hq, h⟩ := h
    split at h
    · simp only [Option.some.injEq] at h; exact Or.inl h.symm
    · rename_i hq1; exact Or.inr ⟨hv, ⟨q, hq, by simpa using hq1⟩, h⟩
  · simp only [Option.some.injEq] at h; exact Or.inl h.symm

theorem onStakeChanged_some {e : Env} {s t : State} {a : Addr} (h : onStakeChanged e s a = some t) :
    t = s ∨ ∃ i q stake, s.records.get a = some i ∧ isQualified e s a = some q ∧ sdkInt64? q.2 = some stake ∧
      ((i.isActive = true ∧ q.1 = false ∧ t = { s with queue := (leaveQueue s.queue i).1 }) ∨
       ((i.isActive = true → q.1 = true) ∧ t = { s with records := s.records.set a (i.updateScore e.log stake) })) := by
  unfold onStakeChanged at h
  split at h
  · simp only [Option.some.injEq] at h; exact Or.inl h.symm
  · rename_i i hi
    simp only [Option.bind_eq_bind, Option.bind_eq_some_iff] at h
    obtain ⟨q, hq, stake, hst, h⟩ := h
    refine Or.inr ⟨i, q, stake, hi, hq, hst, ?_⟩
    split at h
    · rename_i hc
      simp only [Bool.and_eq_true, Bool.not_eq_true'] at hc
      simp only [Option.some.injEq] at h
      refine Or.inl ⟨hc.1, hc.2, ?_⟩
      rw [← h]
      unfold leaveQueue lotteryExclude Info.updateScore
      dsimp only
      split <;> rfl
    · rename_i hc
      simp only [Option.some.injEq] at h
      refine Or.inr ⟨?_, h.symm⟩
      intro ha
      simpa [ha] using hc

/-- What `removeFromStaff` leaves behind. -/
theorem removeFromStaff_cases (e : Env) (s : State) (a : Addr) :
    removeFromStaff e s a = s ∨ ∃ i, s.records.get a = some i ∧ i.staff = true ∧
      ∃ s1 : State, s1 = { s with records := s.records.set a { i with staff := false } } ∧
        (removeFromStaff e s a = s1 ∨ (i.isActive = true ∧ ∃ s2, onStatusUpdate e s1 a = some s2 ∧
          (removeFromStaff e s a = s2 ∨ onStakeChanged e s2 a = some (removeFromStaff e s a)))) := by
  unfold removeFromStaff
  split
  · exact Or.inl rfl
  · rename_i i hi
    split
    · rename_i hs
      refine Or.inr ⟨i, hi, hs, _, rfl, ?_⟩
      dsimp only
      split
      · rename_i ha
        split
        · exact Or.inl rfl
        · rename_i s2 h2
          refine Or.inr ⟨ha, s2, h2, ?_⟩
          cases h3 : onStakeChanged e s2 a with
          | none => exact Or.inl rfl
          | some s3 => exact Or.inr rfl
      · exact Or.inl rfl
    · exact Or.inl rfl

end Verif.Noding
