import Verif.Referral.Structure

/-! Walks up the tree end: the bounds on the number of rounds in the model are never reached on a consistent structure. -/
namespace Verif.Referral
open Relation

/-- A walk of `n` rounds that wants to go on has seen `n` different accounts that have referrers. -/
theorem walk_trace {st : KV Nat Info} {P : Key → Prop} (hf : Forest (treeOf (view st)) P) {f : Nat → Key → Prop}
    (hstep : ∀ n x, f (n + 1) x → ∃ y, (infoOf st x).referrer = some y ∧ f n y) :
    ∀ (n : Nat) (x : Key), f n x →
      ∃ l : List Key, l.length = n ∧ l.Nodup ∧ ∀ c ∈ l, (infoOf st c).referrer ≠ none ∧ ReflTransGen (treeOf (view st)).over c x := by
  intro n
  induction n with
  | zero => intro x _; exact ⟨[], rfl, List.nodup_nil, by simp⟩
  | succ n ih =>
    intro x h
    obtain ⟨y, hy, h⟩ := hstep n x h
    obtain ⟨l, h1, h2, h3⟩ := ih y h
    refine ⟨x :: l, by simp [h1], ?_, ?_⟩
    · rw [List.nodup_cons]
      refine ⟨fun hm => ?_, h2⟩
      have hr : TransGen (treeOf (view st)).over x x := TransGen.tail' (h3 x hm).2 hy
      have : ∀ z, Acc (TransGen (treeOf (view st)).over) z → z = x → False := by
        intro z hz
        induction hz with
        | intro z _ ih => intro e; subst e; exact ih z hr rfl
      exact this x (hf.acc x).transGen rfl
    · intro c hc
      rcases List.mem_cons.1 hc with rfl | hc
      · exact ⟨by rw [hy]; simp, .refl⟩
      · exact ⟨(h3 c hc).1, (h3 c hc).2.tail hy⟩

theorem stored_of_referrer {st : KV Nat Info} {c : Key} (h : (infoOf st c).referrer ≠ none) : c ∈ st.keys := by
  rw [KV.mem_keys]
  cases hg : st.get c with
  | none => unfold infoOf at h; rw [hg] at h; exact absurd rfl h
  | some v => exact ⟨v, rfl⟩

theorem walk_short {st : KV Nat Info} {P : Key → Prop} (hf : Forest (treeOf (view st)) P) {f : Nat → Key → Prop}
    (hstep : ∀ n x, f (n + 1) x → ∃ y, (infoOf st x).referrer = some y ∧ f n y) {n : Nat} (hn : st.entries.length < n) (x : Key) : ¬ f n x := by
  intro h
  obtain ⟨l, h1, h2, h3⟩ := walk_trace hf hstep n x h
  have : l.length ≤ st.keys.length := (List.subperm_of_subset h2 fun c hc => stored_of_referrer (h3 c hc).1).length_le
  have e : st.keys.length = st.entries.length := by unfold KV.keys; rw [List.length_map]
  omega

theorem reaches_ends {st : KV Nat Info} {P : Key → Prop} (hf : Forest (treeOf (view st)) P) (k : Key) {n : Nat} (hn : st.entries.length < n)
    (x : Option Key) : reaches st k n x ≠ none := by
  cases x with
  | none => cases n <;> simp [reaches]
  | some x =>
    refine walk_short hf (f := fun n x => reaches st k n (some x) = none) ?_ hn x
    intro n x h
    unfold reaches at h
    split at h
    · cases h
    · cases hr : (infoOf st x).referrer with
      | none => rw [hr] at h; cases n <;> simp [reaches] at h
      | some y => rw [hr] at h; exact ⟨y, rfl, h⟩

theorem openAncestor_ends {st : KV Nat Info} {P : Key → Prop} (hf : Forest (treeOf (view st)) P) (now month : Int) {n : Nat}
    (hn : st.entries.length < n) (x : Option Key) : openAncestor st now month n x ≠ none := by
  cases x with
  | none => cases n <;> simp [openAncestor]
  | some x =>
    refine walk_short hf (f := fun n x => openAncestor st now month n (some x) = none) ?_ hn x
    intro n x h
    unfold openAncestor at h
    split at h
    · cases hr : (infoOf st x).referrer with
      | none => rw [hr] at h; cases n <;> simp [openAncestor] at h
      | some y => rw [hr] at h; exact ⟨y, rfl, h⟩
    · cases h

/-- Being an ancestor -/
theorem ancestor_iff {st : KV Nat Info} {p c : Key} : (∃ n, ancestor st c n = some p) ↔ TransGen (treeOf (view st)).over p c := by
  constructor
  · rintro ⟨n, hn⟩; exact ancestor_trans n p hn
  · intro h
    induction h using TransGen.head_induction_on with
    | single h => exact ⟨0, h⟩
    | head h _ ih =>
      obtain ⟨n, hn⟩ := ih
      refine ⟨n + 1, ?_⟩
      unfold ancestor
      rw [hn]; exact h

end Verif.Referral
