import Verif.Chain.EnactSteps

/-! C76: when an accepted proposal takes effect. -/
namespace Verif.Enact
open Verif.Util

/-! ### Validators taken apart -/

/-- The part of the fee parameters about the split. -/
def splitValid (p q : Frac) : Prop :=
  p.isNegative = false ∧ q.isNegative = false ∧ ∃ s l, p.add? q = some s ∧ s.gt? (Frac.ofInt 1) = some false ∧ splitLcm? p q = some l ∧
    ¬ l > splitRatiosMaxLcm

theorem fee_iff (f : FeeParams) :
    validateFeeParams? f = some true ↔ f.rate.isNegative = false ∧ 0 ≤ f.maxFee ∧ splitValid f.forProposer f.forCompany := by
  unfold validateFeeParams? splitValid
  cases f.rate.isNegative <;> simp
  by_cases h2 : f.maxFee < 0
  · simp [h2]
  · have h2' : 0 ≤ f.maxFee := by omega
    cases f.forProposer.isNegative <;> cases f.forCompany.isNegative <;> simp [h2, h2']
    rcases f.forProposer.add? f.forCompany with _ | s
    · simp
    · rcases hg : s.gt? (Frac.ofInt 1) with _ | b
      · simp [hg]
      · cases b
        · rcases splitLcm? f.forProposer f.forCompany with _ | l
          · simp [hg]
          · by_cases hl : splitRatiosMaxLcm < l
            · simp [hg, hl]
            · simp [hg, hl]; omega
        · simp [hg]

theorem delegating_iff (p : Delegating.Params) :
    p.validate? = some true ↔
      1 ≤ p.minDelegate ∧ p.revoke.validate? = some true ∧ p.express.validate? = some true ∧ Delegating.validateTable p.table = true := by
  unfold Delegating.Params.validate?
  by_cases h : p.minDelegate < 1
  · simp [h]
  · have h' : 1 ≤ p.minDelegate := by omega
    rcases p.revoke.validate? with _ | a
    · simp [h]
    · rcases p.express.validate? with _ | b
      · cases a <;> simp [h]
      · cases a <;> cases b <;> simp [h, h']

theorem noding_iff (p : Noding.Params) :
    p.validate? = some true ↔
      p.maxValidators ≠ 0 ∧ p.jailAfter ≠ 0 ∧ p.unjailAfter ≠ 0 ∧ (1 ≤ p.minStatus ∧ p.minStatus ≤ 9 ∧ p.minStatus ≠ 8) ∧ p.minSelf ≤ p.minTotal ∧
        p.votingPower.validate? = some true := by
  unfold Noding.Params.validate?
  split
  · simp_all
  split
  · simp_all
  split
  · simp_all
  split
  · rename_i h; simp only [Option.some.injEq, Bool.false_eq_true, false_iff]; omega
  split
  · rename_i h; simp only [Option.some.injEq, Bool.false_eq_true, false_iff]; omega
  · rename_i h1 h2 h3 h4 h5
    constructor
    · intro h; exact ⟨h1, h2, h3, by omega, by omega, h⟩
    · intro h; exact h.2.2.2.2.2

theorem profile_iff (p : Profile.Params) :
    p.valid = true ↔
      (p.creators ≠ [] ∧ p.storageSigners ≠ [] ∧ p.vpnSigners ≠ [] ∧ p.tokenRateSigners ≠ []) ∧ p.tokenRate.isPositive = true ∧
        p.subscriptionPrice ≠ 0 ∧ p.vpnGbPrice ≠ 0 ∧ p.storageGbPrice ≠ 0 ∧ p.baseVpnGb ≠ 0 ∧ p.baseStorageGb ≠ 0 := by
  unfold Profile.Params.valid
  simp only [Bool.and_eq_true, Bool.not_eq_true', List.isEmpty_eq_false_iff, bne_iff_ne, ne_eq, and_assoc]

theorem share_ok {q : Option Frac} (h : shareOk? q = some true) : ∃ x, q = some x ∧ x.isNegative = false := by
  cases q with
  | none => simp [shareOk?] at h
  | some x =>
    refine ⟨x, rfl, ?_⟩
    rcases hc : x.isNegative with _ | _
    · rfl
    · simp [shareOk?, hc] at h

theorem split_ok {p q : Frac} {l : List (Option Frac)} (h : splitOk? (some p :: some q :: l) = some true) : splitValid p q := by
  unfold splitOk? at h
  rcases h1 : shareOk? (some p) with _ | a
  · simp [h1] at h
  rcases h2 : shareOk? (some q) with _ | b
  · cases a <;> simp [h1, h2] at h
  cases a
  · simp [h1] at h
  cases b
  · simp [h1, h2] at h
  obtain ⟨_, e1, n1⟩ := share_ok h1
  obtain ⟨_, e2, n2⟩ := share_ok h2
  cases e1; cases e2
  rcases h3 : p.add? q with _ | s
  · simp [h1, h2, h3] at h
  rcases h4 : s.gt? (Frac.ofInt 1) with _ | c
  · simp [h1, h2, h3, h4] at h
  cases c
  swap
  · simp [h1, h2, h3, h4] at h
  rcases h5 : splitLcm? p q with _ | m
  · simp [h1, h2, h3, h4, h5] at h
  refine ⟨n1, n2, s, m, h3, h4, h5, fun hl => ?_⟩
  simp [h1, h2, h3, h4, h5, hl] at h

theorem portion_ok {q : Frac} (h : portionOk? (some q) = some true) : q.isNegative = false := by
  rcases hc : q.isNegative with _ | _
  · rfl
  · simp [portionOk?, hc] at h

/-! ### Values -/

/-- Under acceptable parameters, an accepted proposal about a value takes effect exactly when the value is possible.  The full claim, that every
accepted proposal takes effect, is false: see the violations below. -/
theorem C76_takes_effect_partial {e : Env} {k : Kind} {x : Args} {w : World} {i : Item} {v : Value} (hw : Acceptable w)
    (hx : argsOk? k x = some true) (ha : asks k x = some (i, v)) : (∃ w', enact e k x w = (.ok (), w')) ↔ Possible e w i v := by
  obtain ⟨hb, hd, hn, hp, hs⟩ := hw
  rw [fee_iff] at hb
  rw [delegating_iff] at hd
  rw [noding_iff] at hn
  rw [profile_iff] at hp
  obtain ⟨b1, b2, b3, b4⟩ := hb
  obtain ⟨d1, d2, d3, d4⟩ := hd
  obtain ⟨n1, n2, n3, n4, n5, n6⟩ := hn
  obtain ⟨p1, p2, p3, p4, p5, p6, p7⟩ := hp
  unfold asks at ha
  split at ha <;> (try cases ha)
  all_goals simp only [argsOk?] at hx
  all_goals simp only [enact, M.get_bind_ok, M.orPanic_bind_ok, Args.price?, Args.minAmount?, Args.count?, Args.criteria?,
      Args.votingPower?, Args.portion?, Args.split?, Args.table?, Args.revoke?, Args.plan?, Option.some.injEq, exists_eq_left', setProfile_ok,
      setBank_ok, trySetBank_ok, setDelegating_ok, trySetDelegating_ok, setNoding_ok, scheduleUpgrade_ok, M.modify_apply,
      Prod.mk.injEq, true_and, exists_and_left, exists_eq, and_true, exists_eq', profile_iff, bank_ok, fee_iff, delegating_iff, noding_iff, Possible]
  case h_1 => constructor <;> intro h <;> [skip; refine ⟨p1, p2, ?_, p4, p5, p6, p7⟩] <;> omega
  case h_2 => constructor <;> intro h <;> [skip; refine ⟨p1, p2, p3, ?_, p5, p6, p7⟩] <;> omega
  case h_3 => constructor <;> intro h <;> [skip; refine ⟨p1, p2, p3, p4, ?_, p6, p7⟩] <;> omega
  case h_5 => exact iff_of_true ⟨b1, b2, b3, b4⟩ trivial
  case h_6 => exact ⟨fun h => h.1, fun h => ⟨h, d2, d3, d4⟩⟩
  case h_7 => exact ⟨fun h => h.1, fun h => ⟨h, b2, b3, b4⟩⟩
  case h_8 => exact ⟨fun h => h.2.2.1, fun h => ⟨b1, b2, h, b4⟩⟩
  case h_9 => exact iff_of_true ⟨b1, portion_ok hx, b3, b4⟩ trivial
  case h_10 => exact iff_of_true ⟨b1, b2, b3, split_ok hx⟩ trivial
  case h_11 => constructor <;> intro h <;> [skip; refine ⟨?_, n2, n3, n4, n5, n6⟩] <;> omega
  case h_12 => exact iff_of_true ⟨n1, n2, n3, n4, n5, n6⟩ trivial
  case h_13 => exact iff_of_true ⟨n1, by simpa using hx, n3, n4, n5, n6⟩ trivial
  case h_14 =>
    simp only [Option.map_some, Option.some.injEq, Criteria.valid, Bool.and_eq_true, decide_eq_true_eq, bne_iff_ne] at hx
    exact iff_of_true ⟨n1, n2, n3, ⟨hx.1.1.1, hx.1.1.2, hx.1.2⟩, hx.2, n6⟩ trivial
  case h_15 => exact iff_of_true ⟨n1, n2, n3, n4, n5, hx⟩ trivial
  case h_16 => exact iff_of_true ⟨d1, d2, d3, by simpa using hx⟩ trivial
  case h_17 => exact iff_of_true ⟨d1, hx, d3, d4⟩ trivial
  case h_18 => exact iff_of_true ⟨d1, d2, hx, d4⟩ trivial
  case h_19 =>
    simp only [Option.some.injEq, Bool.and_eq_true, bne_iff_ne] at hx
    exact ⟨fun h => h.2, fun h => ⟨hx.1.1, h⟩⟩

/-! ### Lists -/

theorem addTo_ne {l : List Addr} {a : Addr} : addTo l a ≠ [] := List.ne_nil_of_mem (mem_addTo.2 (Or.inl rfl))

theorem removeFrom_ne {l : List Addr} {a : Addr} (hn : l.Nodup) : removeFrom l a ≠ [] ↔ ∃ b ∈ l, b ≠ a := by
  constructor
  · intro h
    obtain ⟨b, hb⟩ := List.exists_mem_of_ne_nil _ h
    exact ⟨b, ((mem_removeFrom hn).1 hb).2, ((mem_removeFrom hn).1 hb).1⟩
  · rintro ⟨b, hb, hne⟩
    exact List.ne_nil_of_mem ((mem_removeFrom hn).2 ⟨hne, hb⟩)

/-- Under acceptable parameters, an account can always be put on a list. -/
theorem C76_add_succeeds (e : Env) {k : Kind} {x : Args} {w : World} {r : Roll} {a : Addr} (hw : Acceptable w) (ha : adds k x = some (r, a)) :
    ∃ w', enact e k x w = (.ok (), w') := by
  obtain ⟨hb, hd, hn, hp, hs⟩ := hw
  rw [profile_iff] at hp
  obtain ⟨⟨p1, p2, p3, p4⟩, p5⟩ := hp
  unfold adds at ha
  split at ha <;> (try cases ha)
  all_goals simp only [enact, M.get_bind_ok, M.orPanic_bind_ok, Args.address?, Option.some.injEq, exists_eq_left', setProfile_ok,
      setBank_ok, setSigners_ok, M.modify_apply, Prod.mk.injEq, true_and, exists_and_left, exists_eq, and_true, exists_eq', profile_iff, bank_ok]
  · exact ⟨⟨addTo_ne, p2, p3, p4⟩, p5⟩
  · exact ⟨⟨p1, p2, p3, addTo_ne⟩, p5⟩
  · exact ⟨⟨p1, p2, addTo_ne, p4⟩, p5⟩
  · exact ⟨⟨p1, addTo_ne, p3, p4⟩, p5⟩
  · simp
  · exact hb

theorem exists_other {l : List Addr} {a : Addr} : (∃ n ∈ l.map Voting.text, n ≠ Voting.text a) ↔ ∃ b ∈ l, b ≠ a := by
  constructor
  · rintro ⟨n, hn, hne⟩
    obtain ⟨b, hb, rfl⟩ := List.mem_map.1 hn
    exact ⟨b, hb, fun e => hne (e ▸ rfl)⟩
  · rintro ⟨b, hb, hne⟩
    exact ⟨_, List.mem_map_of_mem hb, fun e => hne (text_inj e)⟩

/-- Under acceptable parameters, an account can be struck off a list without repetitions exactly when the list may become empty or someone else is on
it. -/
theorem C76_strike_succeeds_partial (e : Env) {k : Kind} {x : Args} {w : World} {r : Roll} {a : Addr} (hw : Acceptable w)
    (ha : strikes k x = some (r, a)) (hnd : (rollOf w r).Nodup) :
    (∃ w', enact e k x w = (.ok (), w')) ↔ (r.needed = true → ∃ n ∈ rollOf w r, n ≠ Voting.text a) := by
  obtain ⟨hb, hd, hn, hp, hs⟩ := hw
  rw [profile_iff] at hp
  obtain ⟨⟨p1, p2, p3, p4⟩, p5⟩ := hp
  unfold strikes at ha
  split at ha <;> (try cases ha)
  case h_6 =>
    have hnd' : w.signers.Nodup := List.Nodup.of_map _ hnd
    simp only [enact, M.get_bind_ok, M.orPanic_bind_ok, Args.address?, Option.some.injEq, exists_eq_left', Roll.needed, forall_const, rollOf,
      exists_other]
    rw [← removeFrom_ne hnd']
    unfold removeFrom
    by_cases hc : w.signers.contains a = true
    · simp only [hc, if_true, setSigners_ok, exists_and_left, exists_eq, and_true]
    · simp only [hc, if_false, Bool.false_eq_true]
      exact iff_of_true ⟨_, rfl⟩ hs
  all_goals simp only [enact, M.get_bind_ok, M.orPanic_bind_ok, Args.address?, Option.some.injEq, exists_eq_left', setProfile_ok,
      setBank_ok, M.modify_apply, Prod.mk.injEq, true_and, exists_and_left, exists_eq, and_true, exists_eq', profile_iff, bank_ok, Roll.needed,
      forall_const, Bool.false_eq_true, false_imp_iff, rollOf, exists_other]
  · rw [removeFrom_ne (List.Nodup.of_map _ hnd)]; exact ⟨fun h => h.1.1, fun h => ⟨⟨h, p2, p3, p4⟩, p5⟩⟩
  · rw [removeFrom_ne (List.Nodup.of_map _ hnd)]; exact ⟨fun h => h.1.2.2.2, fun h => ⟨⟨p1, p2, p3, h⟩, p5⟩⟩
  · rw [removeFrom_ne (List.Nodup.of_map _ hnd)]; exact ⟨fun h => h.1.2.2.1, fun h => ⟨⟨p1, p2, h, p4⟩, p5⟩⟩
  · rw [removeFrom_ne (List.Nodup.of_map _ hnd)]; exact ⟨fun h => h.1.2.1, fun h => ⟨⟨p1, h, p3, p4⟩, p5⟩⟩
  · exact iff_of_true hb trivial

/-! ### Lists without repetitions stay so, except two -/

theorem nodup_addTo {l : List Addr} {a : Addr} (h : l.Nodup) : (addTo l a).Nodup := by
  unfold addTo
  split
  · exact h
  · rename_i hc
    rw [List.contains_iff_mem] at hc
    exact List.nodup_append.2 ⟨h, List.nodup_singleton _, fun x hx y hy e => hc (List.mem_singleton.1 hy ▸ e ▸ hx)⟩

theorem nodup_removeFrom {l : List Addr} {a : Addr} (h : l.Nodup) : (removeFrom l a).Nodup := by
  unfold removeFrom
  split
  · rename_i hc
    exact (List.nodup_cons.1 ((Earning.swapRemove_perm (List.contains_iff_mem.1 hc)).nodup_iff.2 h)).2
  · exact h

theorem nodup_text {l : List Addr} (h : l.Nodup) : (l.map Voting.text).Nodup := h.map fun _ _ => text_inj

/-- The government and the earning signers apart (an account can be put on these twice), a list without repetitions stays without repetitions. -/
theorem C76_no_repetitions_partial (e : Env) (k : Kind) (x : Args) (w : World) (r : Roll) (hr : r ≠ .government ∧ r ≠ .earningSigners)
    (h : (rollOf w r).Nodup) : (rollOf (enact e k x w).2 r).Nodup := by
  by_cases hok : (enact e k x w).1 = .ok ()
  swap
  · rw [C76_all_or_nothing e k x w hok]; exact h
  have h' : enact e k x w = (.ok (), (enact e k x w).2) := by rw [← hok]
  generalize (enact e k x w).2 = w' at h'
  clear hok
  obtain ⟨hr1, hr2⟩ := hr
  cases k
  case earningSignerRemove =>
    simp only [enact, M.get_bind_ok, M.orPanic_bind_ok] at h'
    obtain ⟨a, -, h'⟩ := h'
    split at h'
    · obtain ⟨-, rfl⟩ := setSigners_ok.1 h'
      cases r <;> first | exact h | exact absurd rfl hr2
    · obtain ⟨-, rfl⟩ := M.pure_ok.1 h'
      exact h
  all_goals enact_simp at h'
  all_goals first
    | (obtain ⟨a, -, -, rfl⟩ := h'; cases r <;> first
        | exact h
        | exact absurd rfl hr1
        | exact absurd rfl hr2
        | exact nodup_text (nodup_addTo (List.Nodup.of_map _ h))
        | exact nodup_text (nodup_removeFrom (List.Nodup.of_map _ h)))
    | (cases h'; done)

end Verif.Enact
