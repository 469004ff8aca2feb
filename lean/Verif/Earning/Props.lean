import Verif.Earning.Model
import Mathlib.Tactic.Linarith
import Mathlib.Data.List.Induction
import Mathlib.Data.List.Basic

/-! Properties C45, C46, C49 and C50 of the earning module. -/
namespace Verif.Earning

/-! ## Executions -/

/-- Everything that can happen to the module. -/
inductive Event where
  /-- time passes (block times do not go back) -/
  | tick (d : Nat)
  /-- `MsgSet` or `MsgSetMultiple` -/
  | report (signer : Addr) (xs : List Earner)
  /-- `IsActiveEarner`, called by x/delegating (keeper.go:227 and 462, hooks.go:84) -/
  | check (a : Addr)
  /-- enacted by x/voting -/
  | addSigner (a : Addr)
  | removeSigner (a : Addr)
deriving DecidableEq, Repr

structure World where
  now : Int
  s : State

/-- The length of a day is a parameter no transaction can change (only app/upgrade.go touches it). -/
def Event.run (day : Int) (w : World) : Event → World
  | .tick d => { w with now := w.now + d }
  | .report g xs => { w with s := (M.tx (setMultiple g xs) w.s) }
  | .check a => { w with s := (isActiveEarner day w.now a w.s).2 }
  | .addSigner a => { w with s := (M.tx (Verif.Earning.addSigner a) w.s) }
  | .removeSigner a => { w with s := (M.tx (Verif.Earning.removeSigner a) w.s) }

def runAll (day : Int) (w : World) (h : List Event) : World := h.foldl (Event.run day) w

/-- The chain after genesis. -/
def genesis (now : Int) (signers : List Addr) (xs : List Earner) : World :=
  ⟨now, (M.tx (initGenesis signers xs) ⟨KV.empty, []⟩)⟩

/-! ## Specification of C45: what has been reported, by history -/

/-- The reports of an event, in order. -/
def Event.reports : Event → List Earner
  | .report _ xs => xs
  | _ => []

/-- The last report about an account; nothing was ever reported otherwise. -/
def lastReport (l : List Earner) (a : Addr) : Stamps :=
  match (l.filter fun x => x.account = a).getLast? with
  | some x => x.stamps
  | none => ⟨none, none⟩

/-- An activity at `t` is less than two days old at `now`. -/
def Recent (day now : Int) (t : Option Int) : Prop := ∃ u, t = some u ∧ now - u < 2 * day

/-! ## Lemmas -/

theorem fresh_iff (day now : Int) (t : Option Int) : fresh day now t = true ↔ Recent day now t := by
  cases t with
  | none => simp [fresh, Recent]
  | some u => simp only [fresh, Recent, decide_eq_true_eq, Option.some.injEq, exists_eq_left']
              constructor <;> intro h <;> linarith

/-- What is stored about an account; no entry means nothing. -/
def stampsOf (s : State) (a : Addr) : Stamps := (s.store.get a).getD ⟨none, none⟩

/-- Two times that give the same answers from now on. -/
def Same (day now : Int) (t u : Option Int) : Prop := ∀ now', now ≤ now' → (fresh day now' t = fresh day now' u)

theorem Same.refl {day now : Int} (t : Option Int) : Same day now t t := fun _ _ => rfl

theorem Same.later {day now : Int} {t u : Option Int} (h : Same day now t u) {now' : Int} (hn : now ≤ now') :
    Same day now' t u := fun n hn' => h n (le_trans hn hn')

theorem keep_same (day now : Int) (t : Option Int) : Same day now (keep day now t) t := by
  intro now' hn
  unfold keep
  by_cases h : fresh day now t
  · rw [if_pos h]
  · rw [if_neg h]
    cases t with
    | none => rfl
    | some u =>
      have h' : ¬ now < u + 2 * day := by simpa [fresh] using h
      have : ¬ now' < u + 2 * day := by linarith
      simp [fresh, this]

theorem isActive_answer (day now : Int) (a : Addr) (s : State) :
    (isActiveEarner day now a s).1 = (fresh day now (stampsOf s a).vpn, fresh day now (stampsOf s a).storage) := by
  unfold isActiveEarner stampsOf
  cases h : s.store.get a with
  | none => simp [fresh]
  | some t => rfl

theorem isActive_self (day now : Int) (a : Addr) (s : State) :
    stampsOf (isActiveEarner day now a s).2 a
      = ⟨keep day now (stampsOf s a).vpn, keep day now (stampsOf s a).storage⟩ := by
  unfold isActiveEarner
  cases h : s.store.get a with
  | none => simp [stampsOf, h, keep]
  | some t =>
    simp only
    split
    · rename_i hk; simp [stampsOf, h, hk.1, hk.2]
    · split
      · simp [stampsOf, h]
      · rename_i hk
        push Not at hk
        simp [stampsOf, h, hk.1, hk.2]

theorem isActive_other (day now : Int) {a b : Addr} (hb : b ≠ a) (s : State) :
    (isActiveEarner day now a s).2.store.get b = s.store.get b := by
  unfold isActiveEarner
  cases h : s.store.get a with
  | none => rfl
  | some t =>
    simp only
    split
    · exact KV.get_erase_ne _ hb
    · split
      · exact KV.get_set_ne _ _ hb
      · rfl

theorem setOne_stamps (s : State) (x : Earner) (a : Addr) :
    stampsOf (setOne s x) a = if x.account = a then x.stamps else stampsOf s a := by
  obtain ⟨c, ⟨v, g⟩⟩ := x
  unfold setOne stampsOf
  by_cases h : c = a
  · subst h
    by_cases h2 : v = none ∧ g = none
    · simp [h2.1, h2.2]
    · simp only [h2, if_false, KV.get_set_self, if_true]; rfl
  · have h' : a ≠ c := fun e => h e.symm
    by_cases h2 : v = none ∧ g = none
    · simp [h2.1, h2.2, h, KV.get_erase_ne _ h']
    · simp only [h2, if_false, KV.get_set_ne _ _ h', h]

theorem lastReport_nil (a : Addr) : lastReport [] a = ⟨none, none⟩ := rfl

theorem lastReport_snoc (l : List Earner) (x : Earner) (a : Addr) :
    lastReport (l ++ [x]) a = if x.account = a then x.stamps else lastReport l a := by
  unfold lastReport
  by_cases h : x.account = a
  · simp [h, List.filter_append]
  · simp [h, List.filter_append]

/-- The store agrees with the reports `l` from `w.now` on. -/
def Agrees (day : Int) (w : World) (l : List Earner) : Prop :=
  ∀ a, Same day w.now (stampsOf w.s a).vpn (lastReport l a).vpn ∧
    Same day w.now (stampsOf w.s a).storage (lastReport l a).storage

theorem agrees_setOne {day now : Int} {s : State} {l : List Earner} (h : Agrees day ⟨now, s⟩ l) (x : Earner) :
    Agrees day ⟨now, setOne s x⟩ (l ++ [x]) := by
  intro a
  have := h a
  simp only [setOne_stamps, lastReport_snoc]
  split
  · exact ⟨Same.refl _, Same.refl _⟩
  · exact this

theorem agrees_foldl {day now : Int} (xs : List Earner) :
    ∀ {s : State} {l : List Earner}, Agrees day ⟨now, s⟩ l → Agrees day ⟨now, xs.foldl setOne s⟩ (l ++ xs) := by
  induction xs with
  | nil => intro s l h; simpa using h
  | cons x xs ih =>
    intro s l h
    have := ih (agrees_setOne h x)
    simpa using this

theorem setOne'_stamps (s : State) (x : Earner) (a : Addr) :
    stampsOf { s with store := s.store.set x.account x.stamps } a = if x.account = a then x.stamps else stampsOf s a := by
  unfold stampsOf
  by_cases h : x.account = a
  · subst h; simp
  · have h' : a ≠ x.account := fun e => h e.symm
    simp [h, KV.get_set_ne _ _ h']

theorem setEarners_stamps (xs : List Earner) (a : Addr) :
    ∀ {s : State} {l : List Earner}, stampsOf s a = lastReport l a → stampsOf (setEarners xs s) a = lastReport (l ++ xs) a := by
  induction xs with
  | nil => intro s l h; simpa [setEarners] using h
  | cons x xs ih =>
    intro s l h
    have h1 : stampsOf { s with store := s.store.set x.account x.stamps } a = lastReport (l ++ [x]) a := by
      rw [setOne'_stamps, lastReport_snoc, h]
    have := ih h1
    rw [List.append_assoc] at this
    exact this

theorem setParams_store' (l : List Addr) (s : State) : (setParams l s).2.store = s.store := by
  unfold setParams
  by_cases h : l.isEmpty <;> simp [M.panicIf, h, M.bind_apply, M.modify_apply, M.pure_apply]

theorem tx_store {m : M State Unit} (h : ∀ s, (m s).2.store = s.store) (s : State) : (M.tx m s).store = s.store := by
  rcases M.tx_cases m s with ⟨x, hx⟩ | ⟨-, hx⟩
  · have := h s; rw [hx] at this; exact this
  · rw [hx]

theorem addSigner_store (a : Addr) (s : State) : (M.tx (addSigner a) s).store = s.store := by
  refine tx_store (fun s => ?_) s
  unfold addSigner
  simp only [M.bind_apply, M.get_apply]
  exact setParams_store' _ _

theorem removeSigner_store (a : Addr) (s : State) : (M.tx (removeSigner a) s).store = s.store := by
  refine tx_store (fun s => ?_) s
  unfold removeSigner
  simp only [M.bind_apply, M.get_apply]
  split
  · exact setParams_store' _ _
  · rfl

theorem setMultiple_tx (g : Addr) (xs : List Earner) (s : State) : (M.tx (setMultiple g xs) s) = xs.foldl setOne s := by
  rcases xs with _ | ⟨x, xs⟩
  · simp [M.tx, setMultiple, M.errIf, M.bind_apply]
  · simp [M.tx, setMultiple, M.errIf, M.bind_apply, M.modify_apply, M.pure_apply]

theorem agrees_run {day : Int} {w : World} {l : List Earner} (h : Agrees day w l) (e : Event) :
    Agrees day (e.run day w) (l ++ e.reports) := by
  cases e with
  | tick d =>
    intro a
    have := h a
    simp only [Event.run, Event.reports, List.append_nil]
    exact ⟨this.1.later (by simp), this.2.later (by simp)⟩
  | report g xs =>
    simp only [Event.run, Event.reports, setMultiple_tx]
    exact agrees_foldl xs h
  | check b =>
    intro a
    have ha := h a
    simp only [Event.run, Event.reports, List.append_nil]
    by_cases hab : a = b
    · subst hab
      rw [isActive_self]
      exact ⟨fun n hn => (keep_same day w.now _ n hn).trans (ha.1 n hn),
        fun n hn => (keep_same day w.now _ n hn).trans (ha.2 n hn)⟩
    · have : stampsOf (isActiveEarner day w.now b w.s).2 a = stampsOf w.s a := by
        unfold stampsOf; rw [isActive_other _ _ hab]
      rw [this]; exact ha
  | addSigner b =>
    intro a
    have ha := h a
    simp only [Event.run, Event.reports, List.append_nil, stampsOf, addSigner_store]
    exact ha
  | removeSigner b =>
    intro a
    have ha := h a
    simp only [Event.run, Event.reports, List.append_nil, stampsOf, removeSigner_store]
    exact ha

theorem agrees_runAll {day : Int} (h : List Event) :
    ∀ {w : World} {l : List Earner}, Agrees day w l → Agrees day (runAll day w h) (l ++ h.flatMap Event.reports) := by
  induction h with
  | nil => intro w l hw; simpa [runAll] using hw
  | cons e h ih =>
    intro w l hw
    have := ih (agrees_run hw e)
    simp only [List.flatMap_cons]
    rw [← List.append_assoc]
    exact this

theorem genesis_agrees (day now : Int) {signers : List Addr} (hs : signers ≠ []) (xs : List Earner) :
    Agrees day (genesis now signers xs) xs := by
  have hg : (genesis now signers xs).s = setEarners xs ⟨KV.empty, signers⟩ := by
    cases signers with
    | nil => exact absurd rfl hs
    | cons g l => simp [genesis, M.tx, initGenesis, setParams, M.panicIf, M.bind_apply, M.modify_apply, M.pure_apply]
  intro a
  have : stampsOf (genesis now signers xs).s a = lastReport xs a := by
    rw [hg]
    have := setEarners_stamps xs a (s := ⟨KV.empty, signers⟩) (l := []) (by simp [stampsOf, lastReport_nil])
    simpa using this
  rw [this]
  exact ⟨Same.refl _, Same.refl _⟩

/-! ## C45 -/

/-- **C45**: after any history of reports, checks, passing time and changes of the signer list, an account counts as a VPN
(storage) earner iff its last reported VPN (storage) activity is less than two days old.  Checks do not appear in `lastReport`:
however often anybody is checked before, the answer is the same. -/
theorem C45_answer (day now : Int) {signers : List Addr} (hs : signers ≠ []) (xs : List Earner) (h : List Event) (a : Addr) :
    let w := runAll day (genesis now signers xs) h
    let last := lastReport (xs ++ h.flatMap Event.reports) a
    ((isActiveEarner day w.now a w.s).1.1 = true ↔ Recent day w.now last.vpn) ∧
    ((isActiveEarner day w.now a w.s).1.2 = true ↔ Recent day w.now last.storage) := by
  intro w last
  have hw := agrees_runAll h (genesis_agrees day now hs xs) a
  rw [isActive_answer]
  constructor
  · rw [← fresh_iff, ← hw.1 _ (le_refl _)]
  · rw [← fresh_iff, ← hw.2 _ (le_refl _)]

/-- **C45**, checking: in any state whatsoever a check changes no answer about anybody at the same or a later time. -/
theorem C45_check_pure (day : Int) {now now' : Int} (hn : now ≤ now') (a b : Addr) (s : State) :
    (isActiveEarner day now' b (isActiveEarner day now a s).2).1 = (isActiveEarner day now' b s).1 := by
  rw [isActive_answer, isActive_answer]
  by_cases hb : b = a
  · subst hb
    rw [isActive_self]
    simp only [keep_same day now _ now' hn]
  · have : stampsOf (isActiveEarner day now a s).2 b = stampsOf s b := by
      unfold stampsOf; rw [isActive_other _ _ hb]
    rw [this]

/-- **C45**, forgetting: a checked account that is neither has no entry afterwards; every other account's entry is unchanged. -/
theorem C45_forgotten (day now : Int) (a : Addr) (s : State) :
    ((isActiveEarner day now a s).1 = (false, false) → (isActiveEarner day now a s).2.store.get a = none) ∧
    (∀ b, b ≠ a → (isActiveEarner day now a s).2.store.get b = s.store.get b) := by
  refine ⟨?_, fun b hb => isActive_other day now hb s⟩
  unfold isActiveEarner
  cases h : s.store.get a with
  | none => intro _; simpa using h
  | some t =>
    intro hx
    simp only [Prod.mk.injEq] at hx
    have h1 : keep day now t.vpn = none := by simp [keep, hx.1]
    have h2 : keep day now t.storage = none := by simp [keep, hx.2]
    simp [h1, h2]

/-- A case: reported at 10 and checked at 12 and at 17, with days of 3: VPN counts at 12, not at 17. -/
theorem C45_example :
    let w1 := runAll 3 (genesis 10 [1] []) [.report 1 [⟨7, ⟨some 10, some 14⟩⟩], .tick 2, .check 7]
    let w2 := runAll 3 (genesis 10 [1] []) [.report 1 [⟨7, ⟨some 10, some 14⟩⟩], .tick 2, .check 7, .tick 5, .check 7]
    (isActiveEarner 3 w1.now 7 w1.s).1 = (true, true) ∧ (isActiveEarner 3 w2.now 7 w2.s).1 = (false, true) ∧
    w2.s.store.get 7 = some ⟨none, some 14⟩ := by
  decide +kernel

/-! ## C46

The list of signers is never consulted, so the property is false for every sender that is not on it. -/

/-- **C46** does not hold: whoever sends a (well-formed) report and whoever is on the list, the report is applied. -/
theorem C46_anyone_reports (g : Addr) {xs : List Earner} (hx : xs ≠ []) (s : State) :
    setMultiple g xs s = (.ok (), xs.foldl setOne s) := by
  cases xs with
  | nil => exact absurd rfl hx
  | cons x xs => simp [M.tx, setMultiple, M.errIf, M.bind_apply, M.modify_apply, M.pure_apply]

/-- **C46** does not hold, a concrete case: account 5, not on the list, makes itself an earner. -/
theorem C46_self_report :
    let w := genesis 100 [1, 2] []
    let w' := Event.run 10 w (.report 5 [⟨5, ⟨some 100, some 100⟩⟩])
    (5 ∉ w.s.signers) ∧ (isActiveEarner 10 w.now 5 w.s).1 = (false, false) ∧
    (isActiveEarner 10 w'.now 5 w'.s).1 = (true, true) := by
  decide +kernel

/-- The part of **C46** that holds: the store changes only by reports and expiry, and a report changes the entries of the
accounts it names only.  Missing: that the sender has to be on the list (it need not be). -/
theorem C46_named_only_partial (g : Addr) (xs : List Earner) (s : State) (b : Addr) (hb : ∀ x ∈ xs, x.account ≠ b) :
    (M.tx (setMultiple g xs) s).store.get b = s.store.get b := by
  rw [setMultiple_tx]
  induction xs generalizing s with
  | nil => rfl
  | cons x xs ih =>
    rw [List.foldl_cons, ih _ (fun y hy => hb y (List.mem_cons_of_mem _ hy))]
    have hx : b ≠ x.account := fun e => hb x List.mem_cons_self e.symm
    unfold setOne
    split
    · exact KV.get_erase_ne _ hx
    · exact KV.get_set_ne _ _ hx

/-! The list of signers itself. -/

theorem swapRemove_perm {a : Addr} {l : List Addr} (h : a ∈ l) : (a :: swapRemove a l).Perm l := by
  have hne : l ≠ [] := List.ne_nil_of_mem h
  obtain ⟨m, z, rfl⟩ : ∃ m z, l = m ++ [z] := ⟨l.dropLast, l.getLast hne, (List.dropLast_append_getLast hne).symm⟩
  unfold swapRemove
  simp only [List.getLastD_concat]
  by_cases hm : a ∈ m
  · have hi : (m ++ [z]).idxOf a = m.idxOf a := List.idxOf_append_of_mem hm
    have hlt : m.idxOf a < m.length := List.idxOf_lt_length_of_mem hm
    rw [hi, List.set_append_left _ _ hlt, List.dropLast_concat]
    obtain ⟨p, q, hpq, hlen⟩ : ∃ p q, m = p ++ a :: q ∧ m.idxOf a = p.length := by
      refine ⟨m.take (m.idxOf a), m.drop (m.idxOf a + 1), ?_, by simp [hlt.le]⟩
      conv_lhs => rw [← List.take_append_drop (m.idxOf a) m]
      congr 1
      rw [List.drop_eq_getElem_cons hlt, List.getElem_idxOf hlt]
    rw [hlen, hpq, List.set_append_right _ _ (le_refl _)]
    simp only [Nat.sub_self, List.set_cons_zero]
    refine (List.Perm.cons a (List.perm_middle)).trans ?_
    refine (List.Perm.swap z a _).trans ?_
    refine List.Perm.trans ?_ (List.perm_append_comm (l₁ := [z]))
    exact List.Perm.cons z (List.perm_middle.symm)
  · have hz : a = z := by simpa [hm] using h
    subst hz
    have hi : (m ++ [a]).idxOf a = m.length := by
      rw [List.idxOf_append_of_notMem hm]; simp
    rw [hi, List.set_append_right _ _ (le_refl _)]
    simp only [Nat.sub_self, List.set_cons_zero, List.dropLast_concat]
    exact (List.perm_append_comm (l₁ := [a]))

/-- Adding a signer adds exactly this one. -/
theorem addSigner_ok (a : Addr) (s : State) :
    addSigner a s = (.ok (), { s with signers := s.signers ++ [a] }) := by
  have : (s.signers ++ [a]).isEmpty = false := by simp
  simp [M.tx, addSigner, setParams, M.panicIf, M.bind_apply, M.get_apply, M.modify_apply, M.pure_apply]

/-- Removing a signer takes one occurrence off the list, unless it is the only one on it: then the proposal fails. -/
theorem removeSigner_spec {a : Addr} {s : State} (h : a ∈ s.signers) :
    (s.signers = [a] → removeSigner a s = (.panic, s)) ∧
    (s.signers ≠ [a] → ∃ l, removeSigner a s = (.ok (), { s with signers := l }) ∧ (a :: l).Perm s.signers) := by
  have hp := swapRemove_perm h
  constructor
  · intro hs
    rw [hs] at hp
    have he : swapRemove a s.signers = [] := by
      rw [hs]
      have := hp.length_eq
      simpa using this
    have hc : s.signers.contains a = true := by simpa using h
    simp [M.tx, removeSigner, setParams, M.panicIf, M.bind_apply, M.get_apply, h, he]
  · intro hs
    refine ⟨swapRemove a s.signers, ?_, hp⟩
    have he : (swapRemove a s.signers).isEmpty = false := by
      cases hl : swapRemove a s.signers with
      | nil =>
        rw [hl] at hp
        exact absurd (List.perm_singleton.1 hp.symm) hs
      | cons => rfl
    have he' : swapRemove a s.signers ≠ [] := by simpa using he
    simp [M.tx, removeSigner, setParams, M.panicIf, M.bind_apply, M.get_apply, M.modify_apply, M.pure_apply, h, he']

/-- A signer that was added twice stays on the list after its removal. -/
theorem C46_removed_stays :
    let w := runAll 10 (genesis 0 [1] []) [.addSigner 2, .addSigner 2, .removeSigner 2]
    w.s.signers = [1, 2] := by
  decide +kernel

/-! ## C49: export and import -/

theorem setEarners_signers (xs : List Earner) : ∀ s : State, (setEarners xs s).signers = s.signers := by
  induction xs with
  | nil => intro s; rfl
  | cons x xs ih => intro s; exact ih _

theorem setEarners_get (xs : List Earner) (a : Addr) :
    ∀ s : State, (setEarners xs s).store.get a =
      match (xs.filter fun x => x.account = a).getLast? with
      | some x => some x.stamps
      | none => s.store.get a := by
  induction xs using List.reverseRecOn with
  | nil => intro s; rfl
  | append_singleton xs x ih =>
    intro s
    have hs : setEarners (xs ++ [x]) s =
        { setEarners xs s with store := (setEarners xs s).store.set x.account x.stamps } := by
      simp [setEarners, List.foldl_append]
    rw [hs]
    by_cases h : x.account = a
    · subst h; simp [List.filter_append]
    · have h' : a ≠ x.account := fun e => h e.symm
      simp only [KV.get_set_ne _ _ h', ih]
      simp [List.filter_append, h]

/-- **C49**: exporting a running chain's earners and parameters and importing them gives back the same earning state. -/
theorem C49_round_trip (s : State) (hs : s.signers ≠ []) :
    initGenesis s.signers (getEarners s) ⟨KV.empty, []⟩ = (.ok (), s) := by
  have key : setEarners (getEarners s) ⟨KV.empty, s.signers⟩ = s := by
    have h1 : (setEarners (getEarners s) ⟨KV.empty, s.signers⟩).store = s.store := by
      apply KV.ext
      intro a
      rw [setEarners_get]
      cases h : ((getEarners s).filter fun x => x.account = a).getLast? with
      | some x =>
        have hx := List.mem_of_getLast? h
        simp only [List.mem_filter, decide_eq_true_eq, getEarners, List.mem_map] at hx
        obtain ⟨⟨⟨k, v⟩, hm, rfl⟩, rfl⟩ := hx
        exact (KV.mem_entries.1 hm).symm
      | none =>
        have hn : (getEarners s).filter (fun x => x.account = a) = [] := List.getLast?_eq_none_iff.1 h
        cases hg : s.store.get a with
        | none => rfl
        | some v =>
          exfalso
          have : (⟨a, v⟩ : Earner) ∈ (getEarners s).filter (fun x => x.account = a) := by
            simp only [List.mem_filter, decide_eq_true_eq, and_true, getEarners, List.mem_map]
            exact ⟨(a, v), KV.mem_entries.2 hg, rfl⟩
          rw [hn] at this
          cases this
    have h2 := setEarners_signers (getEarners s) ⟨KV.empty, s.signers⟩
    cases hh : setEarners (getEarners s) ⟨KV.empty, s.signers⟩ with
    | mk st sg =>
      rw [hh] at h1 h2
      cases s
      simp only at h1 h2
      rw [h1, h2]
  have he : s.signers.isEmpty = false := by
    cases h : s.signers with
    | nil => exact absurd h hs
    | cons => rfl
  have he' : s.signers ≠ [] := hs
  simp [M.tx, initGenesis, setParams, M.panicIf, M.bind_apply, M.modify_apply, M.pure_apply, he', key]

/-- The list of signers of a running chain is never empty, so `C49_round_trip` applies to every state of every execution. -/
theorem signers_ne (day now : Int) {signers : List Addr} (hs : signers ≠ []) (xs : List Earner) (h : List Event) :
    (runAll day (genesis now signers xs) h).s.signers ≠ [] := by
  have step : ∀ (e : Event) (w : World), w.s.signers ≠ [] → (e.run day w).s.signers ≠ [] := by
    intro e w hw
    cases e with
    | tick d => exact hw
    | report g ys =>
      simp only [Event.run, setMultiple_tx]
      have : ∀ (ys : List Earner) (s : State), (ys.foldl setOne s).signers = s.signers := by
        intro ys
        induction ys with
        | nil => intro s; rfl
        | cons y ys ih => intro s; rw [List.foldl_cons, ih]; unfold setOne; split <;> rfl
      rw [this]; exact hw
    | check b =>
      simp only [Event.run]
      have : (isActiveEarner day w.now b w.s).2.signers = w.s.signers := by
        unfold isActiveEarner
        cases w.s.store.get b with
        | none => rfl
        | some t => simp only; split; · rfl
                    split <;> rfl
      rw [this]; exact hw
    | addSigner b =>
      simp only [Event.run]
      rw [M.tx_of_ok (addSigner_ok b w.s)]
      simp
    | removeSigner b =>
      simp only [Event.run]
      by_cases hb : b ∈ w.s.signers
      · by_cases h1 : w.s.signers = [b]
        · rw [M.tx_of_fail (by rw [(removeSigner_spec hb).1 h1]; rfl)]; exact hw
        · obtain ⟨l, hl, hp⟩ := (removeSigner_spec hb).2 h1
          rw [M.tx_of_ok hl]
          rintro rfl
          exact h1 (List.perm_singleton.1 hp.symm)
      · have : removeSigner b w.s = (.ok (), w.s) := by
          simp [M.tx, removeSigner, M.bind_apply, M.get_apply, hb, M.pure_apply]
        rw [M.tx_of_ok this]; exact hw
  have h0 : (genesis now signers xs).s.signers ≠ [] := by
    cases signers with
    | nil => exact absurd rfl hs
    | cons g l =>
      simp [genesis, M.tx, initGenesis, setParams, M.panicIf, M.bind_apply, M.modify_apply, M.pure_apply, setEarners_signers]
  unfold runAll
  induction h using List.reverseRecOn with
  | nil => exact h0
  | append_singleton h e ih => rw [List.foldl_append]; exact step e _ ih

/-! ## C50: paging -/

theorem listLoop_eq (start stop : Int) (l : List Earner) :
    ∀ (c : Nat), listLoop start stop c l = (l.take (stop - c).toNat).drop (start - c).toNat := by
  induction l with
  | nil => intro c; simp [listLoop]
  | cons x l ih =>
    intro c
    unfold listLoop
    have ih' := ih (c + 1)
    push_cast at ih'
    by_cases h1 : (c : Int) < stop
    · rw [if_pos h1]
      have e1 : (stop - c).toNat = (stop - (c + 1)).toNat + 1 := by omega
      rw [e1, List.take_succ_cons]
      by_cases h2 : (c : Int) < start
      · rw [if_pos h2, ih']
        have e2 : (start - c).toNat = (start - (c + 1)).toNat + 1 := by omega
        rw [e2, List.drop_succ_cons]
      · rw [if_neg h2, ih']
        have e2 : (start - c).toNat = 0 := by omega
        have e3 : (start - (c + 1)).toNat = 0 := by omega
        rw [e2, e3]; simp
    · rw [if_neg h1]
      have e1 : (stop - c).toNat = 0 := by omega
      rw [e1]; simp

theorem wrap32_id {x : Int} (h1 : -(2147483648) ≤ x) (h2 : x < 2147483648) : wrap32 x = x := by
  unfold wrap32
  rw [Int.bmod_eq_of_le] <;> norm_num at * <;> omega

theorem pages_take {α : Type} (l : List α) (n : Nat) :
    ∀ k : Nat, (List.range k).flatMap (fun i => (l.take (n * (i + 1))).drop (n * i)) = l.take (n * k) := by
  intro k
  induction k with
  | zero => simp
  | succ k ih =>
    rw [List.range_succ, List.flatMap_append, ih]
    simp only [List.flatMap_cons, List.flatMap_nil, List.append_nil]
    have : l.take (n * k) = (l.take (n * (k + 1))).take (n * k) := by
      rw [List.take_take]
      congr 1
      have : n * k ≤ n * (k + 1) := Nat.mul_le_mul_left _ (Nat.le_succ _)
      omega
    rw [this, List.take_append_drop]

/-- **C50**: reading the pages 1 … `k` of `limit` entries yields the first `limit * k` earners in the order of their addresses,
each once – all of them, if there are not more –, as long as the numbers stay below 2³¹. -/
theorem C50_pages_partial (limit k : Nat) (h : limit * k < 2147483648) (hk : k < 2147483648) (s : State) :
    (List.range k).flatMap (fun i : Nat => list limit ((i : Int) + 1) s) = (getEarners s).take (limit * k) := by
  rw [← pages_take]
  apply List.flatMap_congr
  intro i hi
  have hik : i + 1 ≤ k := Nat.succ_le_of_lt (by simpa using hi)
  have hb : limit * (i + 1) ≤ limit * k := Nat.mul_le_mul_left _ hik
  have hb' : limit * i ≤ limit * (i + 1) := Nat.mul_le_mul_left _ (Nat.le_succ _)
  have e0 : wrap32 ((i : Int) + 1 - 1) = i := by
    rw [add_sub_cancel_right]
    exact wrap32_id (by omega) (by omega)
  have e1 : wrap32 ((limit : Int) * i) = (limit * i : Nat) := by
    rw [← Nat.cast_mul]
    generalize limit * i = x at *
    exact wrap32_id (by omega) (by omega)
  have e2 : wrap32 ((limit : Int) * (i + 1)) = (limit * (i + 1) : Nat) := by
    have e : (limit : Int) * (i + 1) = ((limit * (i + 1) : Nat) : Int) := by push_cast; rfl
    rw [e]
    generalize limit * (i + 1) = x at *
    exact wrap32_id (by omega) (by omega)
  unfold list
  rw [e0, e1, e2]
  have := listLoop_eq ((limit * i : Nat) : Int) ((limit * (i + 1) : Nat) : Int) (getEarners s) 0
  simp only [Nat.cast_zero, sub_zero, Int.toNat_natCast] at this
  exact this

/-- **C50** does not hold for all requests: with pages of 2³⁰ entries, page 5 starts over at the first
earner, as its start 2³² is reckoned as 0. -/
theorem C50_wraps :
    let w := runAll 10 (genesis 0 [1] []) [.report 1 [⟨7, ⟨some 1, none⟩⟩, ⟨8, ⟨some 1, none⟩⟩]]
    list 1073741824 5 w.s = list 1073741824 1 w.s ∧ (list 1073741824 5 w.s).length = 2 := by
  decide +kernel

theorem C50_example :
    let w := runAll 10 (genesis 0 [1] []) [.report 1 [⟨7, ⟨some 1, none⟩⟩, ⟨8, ⟨some 1, none⟩⟩, ⟨3, ⟨none, some 2⟩⟩]]
    list 2 1 w.s = [⟨3, ⟨none, some 2⟩⟩, ⟨7, ⟨some 1, none⟩⟩] ∧ list 2 2 w.s = [⟨8, ⟨some 1, none⟩⟩] ∧ list 2 3 w.s = [] := by
  decide +kernel

end Verif.Earning
