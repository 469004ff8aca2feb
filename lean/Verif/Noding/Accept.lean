import Verif.Noding.Score

/-! Property C71: which parameters and which genesis files of the module are accepted. -/
namespace Verif.Noding
open Verif.Util

/-- The conditions on parameters, in words: at least one validator, at least one missed block before jail, at least one block of
jail; a status that exists (one to seven and nine; eight is not a status one can demand); a demand on the network not below that on
oneself; powers positive, shares positive and adding up to one. -/
structure Reasonable (p : Params) : Prop where
  seats : 1 ≤ p.maxValidators
  patience : 1 ≤ p.jailAfter
  term : 1 ≤ p.unjailAfter
  status : p.minStatus ∈ [1, 2, 3, 4, 5, 6, 7, 9]
  stakes : p.minSelf ≤ p.minTotal
  lucky : 1 ≤ p.votingPower.luckyPower
  slices : p.votingPower.slices ≠ []
  powers : ∀ x ∈ p.votingPower.slices, 1 ≤ x.power
  shares : ∀ x ∈ p.votingPower.slices, x.part.denom ≠ 0 ∧ (0 : ℚ) < (x.part.num : ℚ) / (x.part.denom : ℚ)
  whole : (p.votingPower.slices.map fun x => (x.part.num : ℚ) / (x.part.denom : ℚ)).sum = 1

theorem sumParts?_total {l : List Slice} : ∀ {acc : Frac}, acc.denom ≠ 0 →
    (∀ x ∈ l, 0 < x.power ∧ x.part.denom ≠ 0 ∧ 0 < x.part.toRat) → ∃ t, sumParts? acc l = some (some t) := by
  induction l with
  | nil => intro acc _ _; exact ⟨acc, rfl⟩
  | cons x r ih =>
    intro acc ha h
    obtain ⟨h1, h2, h3⟩ := h x (List.mem_cons_self ..)
    obtain ⟨z, hz, hz0, -⟩ := Frac.add?_spec acc x.part ha h2
    obtain ⟨t, ht⟩ := ih (acc := z) (by omega) fun y hy => h y (List.mem_cons_of_mem _ hy)
    refine ⟨t, ?_⟩
    unfold sumParts?
    rw [if_neg (by omega), if_neg (by simp [(Frac.isPositive_iff x.part h2).2 h3]), hz]
    exact ht

/-- C71, parameters: accepted exactly when they are reasonable. -/
theorem C71_params (p : Params) : p.validate? = some true ↔ Reasonable p := by
  constructor
  · intro h
    unfold Params.validate? at h
    split at h
    · simp at h
    split at h
    · simp at h
    split at h
    · simp at h
    split at h
    · simp at h
    rename_i hst
    split at h
    · simp at h
    have hd := DistrOk.of_validate h
    refine ⟨by omega, by omega, by omega, ?_, by omega, hd.lucky, hd.nonempty, hd.power, ?_, ?_⟩
    · have h1 : 1 ≤ p.minStatus ∧ p.minStatus ≤ 9 ∧ p.minStatus ≠ 8 := by omega
      simp only [List.mem_cons, List.not_mem_nil, or_false]
      omega
    · intro x hx
      exact ⟨hd.denom x hx, hd.part x hx⟩
    · have := hd.total
      simp only [upTo, List.take_length] at this
      exact this
  · intro h
    have h1 : 1 ≤ p.minStatus ∧ p.minStatus ≤ 9 ∧ p.minStatus ≠ 8 := by
      have := h.status
      simp only [List.mem_cons, List.not_mem_nil, or_false] at this
      omega
    unfold Params.validate?
    have := h.seats; have := h.patience; have := h.term; have := h.stakes; have := h.lucky
    rw [if_neg (by omega), if_neg (by omega), if_neg (by omega), if_neg (by omega), if_neg (by omega)]
    unfold Distribution.validate?
    rw [if_neg (by omega), if_neg (by simpa using h.slices)]
    obtain ⟨t, ht⟩ := sumParts?_total (l := p.votingPower.slices) (acc := Frac.ofInt 0) (by simp [Frac.ofInt])
      fun x hx => ⟨h.powers x hx, (h.shares x hx).1, (h.shares x hx).2⟩
    obtain ⟨g1, -, g3⟩ := sumParts?_ok (by simp [Frac.ofInt]) ht
    rw [ht]
    simp only [Option.bind_eq_bind, Option.bind_some]
    rw [Frac.equal?_spec t _ g1 (by simp [Frac.ofInt])]
    simp only [Option.some.injEq, decide_eq_true_eq]
    have e0 : (Frac.ofInt 0).toRat = 0 := by simp [Frac.ofInt, Frac.toRat]
    have e1 : (Frac.ofInt 1).toRat = 1 := by simp [Frac.ofInt, Frac.toRat]
    rw [g3, e0, e1, zero_add]
    exact h.whole

/-- An accepted change of parameters takes effect as it is; an unreasonable one changes nothing. -/
theorem C71_set_params (e : Env) (s : State) (p : Params) :
    (Reasonable p → (Op.setParams p).run e s = { s with params := p }) ∧ (¬ Reasonable p → (Op.setParams p).run e s = s) := by
  constructor
  · intro h
    show (setParams s p).getD s = _
    unfold setParams
    rw [if_pos ((C71_params p).2 h)]; rfl
  · intro h
    show (setParams s p).getD s = _
    unfold setParams
    rw [if_neg fun h' => h ((C71_params p).1 h')]; rfl

/-- The counters of an entry of a genesis file make sense: none below zero, and not both signed and missed blocks in a row. -/
structure Plausible (v : GenesisValidator) : Prop where
  proposed : 0 ≤ v.proposed
  jailCount : 0 ≤ v.jailCount
  okBlocks : 0 ≤ v.okBlocks
  missed : 0 ≤ v.missed
  one : v.okBlocks = 0 ∨ v.missed = 0

theorem countersOk_iff (v : GenesisValidator) : v.countersOk = true ↔ Plausible v := by
  unfold GenesisValidator.countersOk
  rw [decide_eq_true_eq]
  constructor
  · rintro ⟨h1, h2, h3, h4, h5⟩
    exact ⟨h1, h2, h3, h4, by omega⟩
  · rintro ⟨h1, h2, h3, h4, h5⟩
    exact ⟨h1, h2, h3, h4, by omega⟩

/-- C71, genesis files: accepted exactly when the parameters are reasonable, there is an active validator, the active ones have a
key and are neither jailed nor banned, and all counters make sense. -/
theorem C71_genesis (p : Params) (active rest : List GenesisValidator) :
    genesisValid p active rest = true ↔
      Reasonable p ∧ active ≠ [] ∧ (∀ v ∈ active, v.pubKey ≠ 0 ∧ v.jailed = false ∧ v.banned = false) ∧
        ∀ v ∈ active ++ rest, Plausible v := by
  unfold genesisValid
  simp only [Bool.and_eq_true, beq_iff_eq, C71_params, Bool.not_eq_true', List.isEmpty_eq_false_iff, List.all_eq_true, bne_iff_ne, ne_eq,
    countersOk_iff, List.mem_append]
  constructor
  · rintro ⟨⟨⟨h1, h2⟩, h3⟩, h4⟩
    refine ⟨h1, h2, fun v hv => ?_, ?_⟩
    · obtain ⟨⟨⟨a, b⟩, c⟩, -⟩ := h3 v hv
      exact ⟨a, b, c⟩
    · rintro v (hv | hv)
      · exact (h3 v hv).2
      · exact h4 v hv
  · rintro ⟨h1, h2, h3, h4⟩
    refine ⟨⟨⟨h1, h2⟩, fun v hv => ?_⟩, fun v hv => h4 v (Or.inr hv)⟩
    obtain ⟨a, b, c⟩ := h3 v hv
    exact ⟨⟨⟨a, b⟩, c⟩, h4 v (Or.inl hv)⟩

/-- The parameters of the examples are accepted; with an eighth status, or no jail term, they are not.  A file with one active
validator is accepted, one without, or with a validator that both signed and missed blocks in a row, is not. -/
example : Reasonable (Ex.params 3 1) ∧ ¬ Reasonable { Ex.params 3 1 with minStatus := 8 } ∧ ¬ Reasonable { Ex.params 3 1 with unjailAfter := 0 } ∧
    genesisValid (Ex.params 3 1) [{ account := 1, pubKey := 71 }] [{ account := 2, pubKey := 0, jailed := true, missed := 4 }] = true ∧
    genesisValid (Ex.params 3 1) [] [{ account := 2, pubKey := 0 }] = false ∧
    genesisValid (Ex.params 3 1) [{ account := 1, pubKey := 71, okBlocks := 1, missed := 1 }] [] = false := by
  simp only [← C71_params]
  decide +kernel

end Verif.Noding
