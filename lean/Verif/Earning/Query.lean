import Verif.Earning.Props

/-! Property C99: what the queries of the earning module show.

Model of `Get` and `GetMultiple` of /repo/x/earning/keeper/query_server.go; `List` is in `Model.lean`.  Accounts are the addresses
their texts parse to; a text that does not parse makes the whole query fail (query_server.go:56-60). -/
namespace Verif.Earning

/-- The body of the loop of `GetMultiple`, keeper/query_server.go:62-73: an account without an entry is shown without times. -/
def showOne (s : State) (a : Addr) : Earner :=
  match s.store.get a with
  | some t => ⟨a, t⟩
  | none => ⟨a, ⟨none, none⟩⟩

/-- `QueryServer.GetMultiple`, keeper/query_server.go:40-77: the answers are appended one after the other. -/
def showMultiple (s : State) (as : List Addr) : List Earner := as.foldl (fun l a => l ++ [showOne s a]) []

/-- `QueryServer.Get`, keeper/query_server.go:18-38: the first answer of `GetMultiple`; `none` = panic, index out of range. -/
def showAccount (s : State) (a : Addr) : Option Earner := (showMultiple s [a])[0]?

theorem showMultiple_map (s : State) (as : List Addr) : showMultiple s as = as.map (showOne s) := by
  have : ∀ (as : List Addr) (l : List Earner), as.foldl (fun l a => l ++ [showOne s a]) l = l ++ as.map (showOne s) := by
    intro as
    induction as with
    | nil => intro l; simp
    | cons a as ih => intro l; rw [List.foldl_cons, ih]; simp
  simpa [showMultiple] using this as []

theorem showOne_stamps (s : State) (a : Addr) : showOne s a = ⟨a, stampsOf s a⟩ := by
  unfold showOne stampsOf
  cases s.store.get a <;> rfl

/-- What may be shown as time of an activity last reported as `r`: this time, or nothing if it is two days old or older. -/
def Shown (day now : Int) (r t : Option Int) : Prop := t = r ∨ (t = none ∧ ¬ Recent day now r)

theorem Shown.later {day now now' : Int} {r t : Option Int} (h : Shown day now r t) (hn : now ≤ now') : Shown day now' r t := by
  rcases h with h | ⟨h, hr⟩
  · exact Or.inl h
  · refine Or.inr ⟨h, ?_⟩
    rintro ⟨u, hu, hlt⟩
    exact hr ⟨u, hu, by omega⟩

theorem Shown.kept {day now : Int} {r t : Option Int} (h : Shown day now r t) : Shown day now r (keep day now t) := by
  rcases h with rfl | ⟨rfl, hr⟩
  · by_cases hf : fresh day now t = true
    · exact Or.inl (by rw [keep, if_pos hf])
    · exact Or.inr ⟨by rw [keep, if_neg hf], fun hr => hf ((fresh_iff _ _ _).2 hr)⟩
  · exact Or.inr ⟨rfl, hr⟩

/-- Both times of every account are as `Shown` says, the reports being `l`. -/
def Truthful (day : Int) (w : World) (l : List Earner) : Prop :=
  ∀ a, Shown day w.now (lastReport l a).vpn (stampsOf w.s a).vpn ∧ Shown day w.now (lastReport l a).storage (stampsOf w.s a).storage

theorem truthful_foldl {day now : Int} (xs : List Earner) :
    ∀ {s : State} {l : List Earner}, Truthful day ⟨now, s⟩ l → Truthful day ⟨now, xs.foldl setOne s⟩ (l ++ xs) := by
  induction xs with
  | nil => intro s l h; simpa using h
  | cons x xs ih =>
    intro s l h
    have : Truthful day ⟨now, setOne s x⟩ (l ++ [x]) := by
      intro a
      have := h a
      simp only [setOne_stamps, lastReport_snoc]
      split
      · exact ⟨Or.inl rfl, Or.inl rfl⟩
      · exact this
    simpa using ih this

theorem truthful_run {day : Int} {w : World} {l : List Earner} (h : Truthful day w l) (e : Event) :
    Truthful day (e.run day w) (l ++ e.reports) := by
  cases e with
  | tick d =>
    intro a
    simp only [Event.run, Event.reports, List.append_nil]
    exact ⟨(h a).1.later (by simp), (h a).2.later (by simp)⟩
  | report g xs =>
    simp only [Event.run, Event.reports, setMultiple_tx]
    exact truthful_foldl xs h
  | check b =>
    intro a
    simp only [Event.run, Event.reports, List.append_nil]
    by_cases hab : a = b
    · subst hab
      rw [isActive_self]
      exact ⟨(h a).1.kept, (h a).2.kept⟩
    · have : stampsOf (isActiveEarner day w.now b w.s).2 a = stampsOf w.s a := by
        unfold stampsOf; rw [isActive_other _ _ hab]
      rw [this]; exact h a
  | addSigner b =>
    intro a
    simp only [Event.run, Event.reports, List.append_nil, stampsOf, addSigner_store]
    exact h a
  | removeSigner b =>
    intro a
    simp only [Event.run, Event.reports, List.append_nil, stampsOf, removeSigner_store]
    exact h a

theorem truthful_runAll {day : Int} (h : List Event) :
    ∀ {w : World} {l : List Earner}, Truthful day w l → Truthful day (runAll day w h) (l ++ h.flatMap Event.reports) := by
  induction h with
  | nil => intro w l hw; simpa [runAll] using hw
  | cons e h ih =>
    intro w l hw
    have := ih (truthful_run hw e)
    simp only [List.flatMap_cons]
    rw [← List.append_assoc]
    exact this

theorem genesis_state (now : Int) {signers : List Addr} (hs : signers ≠ []) (xs : List Earner) :
    (genesis now signers xs).s = setEarners xs ⟨KV.empty, signers⟩ := by
  cases signers with
  | nil => exact absurd rfl hs
  | cons g l => simp [genesis, M.tx, initGenesis, setParams, M.panicIf, M.bind_apply, M.modify_apply]

theorem genesis_truthful (day now : Int) {signers : List Addr} (hs : signers ≠ []) (xs : List Earner) :
    Truthful day (genesis now signers xs) xs := by
  intro a
  have : stampsOf (genesis now signers xs).s a = lastReport xs a := by
    rw [genesis_state now hs]
    have := setEarners_stamps xs a (s := ⟨KV.empty, signers⟩) (l := []) (by simp [stampsOf, lastReport_nil])
    simpa using this
  rw [this]
  exact ⟨Or.inl rfl, Or.inl rfl⟩

/-- **C99**: after any history, a query about accounts `as` answers with one entry for each of them, in the order asked, and in
every entry either time is the last reported one; only if that is two days old or older, it may be missing. -/
theorem C99_shown (day now : Int) {signers : List Addr} (hs : signers ≠ []) (xs : List Earner) (h : List Event) (as : List Addr) :
    let w := runAll day (genesis now signers xs) h;
    (showMultiple w.s as).map Earner.account = as ∧
    ∀ x ∈ showMultiple w.s as, let last := lastReport (xs ++ h.flatMap Event.reports) x.account;
      Shown day w.now last.vpn x.stamps.vpn ∧ Shown day w.now last.storage x.stamps.storage := by
  intro w
  have hw := truthful_runAll h (genesis_truthful day now hs xs)
  rw [showMultiple_map]
  refine ⟨?_, ?_⟩
  · rw [List.map_map]
    have : Earner.account ∘ showOne w.s = id := by
      funext a; simp [showOne_stamps]
    rw [this, List.map_id]
  · intro x hx
    obtain ⟨a, _, rfl⟩ := List.mem_map.1 hx
    rw [showOne_stamps]
    exact hw a

/-- **C99**: a query about one account never fails and answers as the query about several would. -/
theorem C99_one (s : State) (a : Addr) : ∃ x, showAccount s a = some x ∧ x.account = a ∧
    ∀ as, a ∈ as ↔ x ∈ showMultiple s as := by
  refine ⟨showOne s a, ?_, by rw [showOne_stamps], fun as => ?_⟩
  · rw [showAccount, showMultiple_map]; rfl
  · rw [showMultiple_map, List.mem_map]
    constructor
    · intro h; exact ⟨a, h, rfl⟩
    · rintro ⟨b, hb, e⟩
      rw [showOne_stamps, showOne_stamps] at e
      exact (Earner.mk.inj e).1 ▸ hb

/-- **C99**: whoever counts as earner is shown with the time that makes them one. -/
theorem C99_earners_shown (day now : Int) {signers : List Addr} (hs : signers ≠ []) (xs : List Earner) (h : List Event) (a : Addr) :
    let w := runAll day (genesis now signers xs) h;
    let last := lastReport (xs ++ h.flatMap Event.reports) a;
    ∃ x, showAccount w.s a = some x ∧
      ((isActiveEarner day w.now a w.s).1.1 = true → x.stamps.vpn = last.vpn ∧ last.vpn ≠ none) ∧
      ((isActiveEarner day w.now a w.s).1.2 = true → x.stamps.storage = last.storage ∧ last.storage ≠ none) := by
  intro w last
  have hw := truthful_runAll h (genesis_truthful day now hs xs) a
  have hc := C45_answer day now hs xs h a
  refine ⟨showOne w.s a, by rw [showAccount, showMultiple_map]; rfl, fun hv => ?_, fun hv => ?_⟩
  · have hr := hc.1.1 hv
    rw [showOne_stamps]
    refine ⟨(hw.1.resolve_right fun hx => hx.2 hr), ?_⟩
    obtain ⟨u, hu, _⟩ := hr
    rw [hu]; simp
  · have hr := hc.2.1 hv
    rw [showOne_stamps]
    refine ⟨(hw.2.resolve_right fun hx => hx.2 hr), ?_⟩
    obtain ⟨u, hu, _⟩ := hr
    rw [hu]; simp

/-! ## The list of all earners -/

/-- No entry is without times. -/
def Filled (s : State) : Prop := ∀ a t, s.store.get a = some t → t ≠ ⟨none, none⟩

theorem filled_setOne {s : State} (h : Filled s) (x : Earner) : Filled (setOne s x) := by
  intro a t ht
  obtain ⟨c, ⟨v, g⟩⟩ := x
  unfold setOne at ht
  by_cases h2 : v = none ∧ g = none
  · simp only [h2, and_self, if_true] at ht
    by_cases hc : a = c
    · subst hc; simp at ht
    · rw [KV.get_erase_ne _ hc] at ht; exact h a t ht
  · simp only [h2, if_false] at ht
    by_cases hc : a = c
    · subst hc
      rw [KV.get_set_self] at ht
      cases ht
      intro e
      exact h2 ⟨(Stamps.mk.inj e).1, (Stamps.mk.inj e).2⟩
    · rw [KV.get_set_ne _ _ hc] at ht; exact h a t ht

theorem filled_check {s : State} (h : Filled s) (day now : Int) (b : Addr) : Filled (isActiveEarner day now b s).2 := by
  intro a t ht
  by_cases hab : a = b
  · subst hab
    unfold isActiveEarner at ht
    cases e : s.store.get a with
    | none => simp only [e] at ht; cases ht
    | some u =>
      simp only [e] at ht
      split at ht
      · simp at ht
      · rename_i hk
        split at ht
        · rw [KV.get_set_self] at ht
          cases ht
          intro e'
          exact hk ⟨(Stamps.mk.inj e').1, (Stamps.mk.inj e').2⟩
        · exact h a t ht
  · rw [isActive_other _ _ hab] at ht
    exact h a t ht

theorem filled_run {day : Int} {w : World} (h : Filled w.s) (e : Event) : Filled (e.run day w).s := by
  cases e with
  | tick d => exact h
  | report g xs =>
    simp only [Event.run, setMultiple_tx]
    generalize w.s = s at h
    induction xs generalizing s with
    | nil => exact h
    | cons x xs ih => exact ih _ (filled_setOne h x)
  | check b => exact filled_check h _ _ _
  | addSigner b => intro a t ht; simp only [Event.run, addSigner_store] at ht; exact h a t ht
  | removeSigner b => intro a t ht; simp only [Event.run, removeSigner_store] at ht; exact h a t ht

theorem filled_runAll {day : Int} (h : List Event) : ∀ {w : World}, Filled w.s → Filled (runAll day w h).s := by
  induction h with
  | nil => intro w hw; exact hw
  | cons e h ih => intro w hw; exact ih (filled_run hw e)

theorem filled_genesis (now : Int) {signers : List Addr} (hs : signers ≠ []) (xs : List Earner)
    (hx : ∀ x ∈ xs, x.stamps ≠ ⟨none, none⟩) : Filled (genesis now signers xs).s := by
  rw [genesis_state now hs]
  have : ∀ (xs : List Earner) (s : State), (∀ x ∈ xs, x.stamps ≠ ⟨none, none⟩) → Filled s → Filled (setEarners xs s) := by
    intro xs
    induction xs with
    | nil => intro s _ h; exact h
    | cons x xs ih =>
      intro s hx h
      refine ih _ (fun y hy => hx y (by simp [hy])) ?_
      intro a t ht
      by_cases hc : a = x.account
      · subst hc
        simp only [KV.get_set_self] at ht
        cases ht
        exact hx x (by simp)
      · simp only [KV.get_set_ne _ _ hc] at ht
        exact h a t ht
  exact this xs _ hx (by intro a t ht; simp at ht)

/-- **C99**: the list of all earners – which `List` shows in pages, see C50 – consists of exactly those answers about single
accounts that show a time.  The full claim is for every accepted genesis; missing is a genesis naming an earner without times,
see `C99_empty_earner_violation`. -/
theorem C99_list_partial (day now : Int) {signers : List Addr} (hs : signers ≠ []) (xs : List Earner) (h : List Event)
    (hx : ∀ x ∈ xs, x.stamps ≠ ⟨none, none⟩) (x : Earner) :
    let w := runAll day (genesis now signers xs) h;
    x ∈ getEarners w.s ↔ showAccount w.s x.account = some x ∧ (x.stamps.vpn ≠ none ∨ x.stamps.storage ≠ none) := by
  intro w
  have hf : Filled w.s := filled_runAll h (filled_genesis now hs xs hx)
  have e : showAccount w.s x.account = some ⟨x.account, stampsOf w.s x.account⟩ := by
    rw [showAccount, showMultiple_map, ← showOne_stamps]; rfl
  obtain ⟨a, ⟨v, g⟩⟩ := x
  rw [e]
  simp only [getEarners, List.mem_map, Option.some.injEq, Earner.mk.injEq, true_and]
  constructor
  · rintro ⟨⟨b, t⟩, hb, hba, hbt⟩
    simp only at hba hbt
    subst hba hbt
    have hg := KV.mem_entries.1 hb
    refine ⟨by simp [stampsOf, hg], ?_⟩
    have := hf _ _ hg
    by_contra hn
    push Not at hn
    exact this (by rw [hn.1, hn.2])
  · rintro ⟨hst, hn⟩
    unfold stampsOf at hst
    cases hg : w.s.store.get a with
    | none =>
      rw [hg] at hst
      simp only [Option.getD_none, Stamps.mk.injEq] at hst
      rcases hn with hn | hn
      · exact absurd hst.1.symm hn
      · exact absurd hst.2.symm hn
    | some t =>
      rw [hg, Option.getD_some] at hst
      exact ⟨(a, t), KV.mem_entries.2 hg, rfl, hst⟩

/-- C99 fails for a genesis file with an earner without times, which validation accepts (types/genesis.go:23-33): they are listed
although nothing was ever reported about them. -/
theorem C99_empty_earner_violation :
    (genesis 0 [1] [⟨7, ⟨none, none⟩⟩]).s.store.get 7 = some ⟨none, none⟩ ∧
    list 10 1 (genesis 0 [1] [⟨7, ⟨none, none⟩⟩]).s = [⟨7, ⟨none, none⟩⟩] := by
  decide +kernel

/-- Three accounts, days of 3: both times of 7 are shown until somebody checks 7 when its VPN time is too old; 8 is never checked
and keeps showing its old time; 9 was withdrawn. -/
def Ex.story : List Event := [.report 1 [⟨7, ⟨some 10, some 14⟩⟩, ⟨8, ⟨some 10, none⟩⟩, ⟨9, ⟨some 11, none⟩⟩], .tick 7,
  .report 2 [⟨9, ⟨none, none⟩⟩]]

theorem C99_example :
    showMultiple (runAll 3 (genesis 10 [1] []) Ex.story).s [8, 7, 9, 7] = [⟨8, ⟨some 10, none⟩⟩, ⟨7, ⟨some 10, some 14⟩⟩,
      ⟨9, ⟨none, none⟩⟩, ⟨7, ⟨some 10, some 14⟩⟩] ∧
    showMultiple (runAll 3 (genesis 10 [1] []) (Ex.story ++ [.check 7])).s [7, 8] = [⟨7, ⟨none, some 14⟩⟩, ⟨8, ⟨some 10, none⟩⟩] ∧
    getEarners (runAll 3 (genesis 10 [1] []) (Ex.story ++ [.check 7])).s = [⟨7, ⟨none, some 14⟩⟩, ⟨8, ⟨some 10, none⟩⟩] := by
  decide +kernel

end Verif.Earning
