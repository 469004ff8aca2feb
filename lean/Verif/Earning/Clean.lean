import Verif.Earning.Props

/-! C106: version 2.5.0 empties the earning store.

The records it finds may be of any earlier form, so the store is over any type of values.  The parameters are in a store of their own
and stay. -/
namespace Verif.Earning

/-- The loop over the keys collected before, /repo/app/upgrade.go:998-1000. -/
def deleteAll {V : Type} : List Nat → KV Nat V → KV Nat V
  | [], st => st
  | k :: l, st => deleteAll l (st.erase k)

/-- `CleanEarningStore`, /repo/app/upgrade.go:986-1004 (and `clear`, /repo/x/earning/keeper/keeper.go:120-131, which nobody calls): the
keys are collected first, then deleted. -/
def cleanStore {V : Type} (st : KV Nat V) : KV Nat V := deleteAll st.keys st

/-! ## Lemmas -/

theorem get_deleteAll {V : Type} : ∀ (l : List Nat) (st : KV Nat V) (a : Nat),
    (deleteAll l st).get a = if a ∈ l then none else st.get a
  | [], st, a => by simp [deleteAll]
  | k :: l, st, a => by
    rw [deleteAll, get_deleteAll l, KV.get_erase]
    by_cases h1 : a ∈ l <;> by_cases h2 : a = k <;> simp [h1, h2]

theorem cleanStore_empty {V : Type} (st : KV Nat V) : cleanStore st = KV.empty := by
  refine KV.ext fun a => ?_
  rw [cleanStore, get_deleteAll, KV.get_empty]
  split
  · rfl
  · rename_i h
    cases hg : st.get a with
    | none => rfl
    | some v => exact absurd (KV.mem_keys.2 ⟨v, hg⟩) h

/-! ## C106 -/

/-- **C106**: whatever the store holds, in whatever form, nothing of it is left: no record of any account, none to iterate over. -/
theorem C106_nothing_left {V : Type} (st : KV Nat V) : (∀ a, (cleanStore st).get a = none) ∧ (cleanStore st).entries = [] := by
  rw [cleanStore_empty]
  exact ⟨fun _ => rfl, rfl⟩

/-- **C106**, afterwards: whatever had been reported before, an account counts as an earner from then on iff what was last reported about it *since*
the upgrade is less than two days old. -/
theorem C106_afterwards (day now : Int) (s : State) (h : List Event) (a : Addr) :
    let w := runAll day ⟨now, { s with store := cleanStore s.store }⟩ h
    let last := lastReport (h.flatMap Event.reports) a
    ((isActiveEarner day w.now a w.s).1.1 = true ↔ Recent day w.now last.vpn) ∧
    ((isActiveEarner day w.now a w.s).1.2 = true ↔ Recent day w.now last.storage) := by
  intro w last
  have h0 : Agrees day ⟨now, { s with store := cleanStore s.store }⟩ [] := by
    intro b
    have : stampsOf { s with store := cleanStore s.store } b = lastReport [] b := by
      simp [stampsOf, cleanStore_empty, lastReport_nil]
    rw [this]
    exact ⟨Same.refl _, Same.refl _⟩
  have hw := agrees_runAll h h0 a
  rw [List.nil_append] at hw
  rw [isActive_answer]
  constructor
  · rw [← fresh_iff, ← hw.1 _ (le_refl _)]
  · rw [← fresh_iff, ← hw.2 _ (le_refl _)]

/-- A case: account 7 reported before the upgrade no longer counts, though the report is fresh; account 8 does, once it is
reported anew. -/
theorem C106_example :
    let w0 := runAll 3 (genesis 10 [1] []) [.report 1 [⟨7, ⟨some 10, none⟩⟩, ⟨8, ⟨some 10, some 10⟩⟩], .tick 1]
    let w1 := runAll 3 ⟨w0.now, { w0.s with store := cleanStore w0.s.store }⟩ [.report 1 [⟨8, ⟨none, some 11⟩⟩], .tick 1]
    (isActiveEarner 3 w0.now 7 w0.s).1 = (true, false) ∧ (isActiveEarner 3 w0.now 8 w0.s).1 = (true, true) ∧
    (isActiveEarner 3 w1.now 7 w1.s).1 = (false, false) ∧ (isActiveEarner 3 w1.now 8 w1.s).1 = (false, true) := by
  decide +kernel

end Verif.Earning
