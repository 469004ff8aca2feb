import Verif.Referral.Export
import Verif.Referral.Structure

/-! The export visits every account that is not banished, once, level by level. -/
namespace Verif.Referral

/-- The accounts `n` steps below an account without referrer -/
def level (st : KV Nat Info) : Nat → List Key
  | 0 => topLevelOf st
  | n + 1 => (level st n).flatMap fun k => (infoOf st k).referrals

/-- The accounts at levels below `n` -/
def upTo (st : KV Nat Info) : Nat → List Key
  | 0 => []
  | n + 1 => upTo st n ++ level st n

def entryOf (st : KV Nat Info) (k : Key) : Option (Key × List Key) :=
  if (infoOf st k).referrals.isEmpty then none else some (k, (infoOf st k).referrals)

/-- The file in which the accounts of `l` are described -/
def fileOf (st : KV Nat Info) (l : List Key) : GenesisFile where
  topLevel := topLevelOf st
  other := l.filterMap (entryOf st)
  banished := banishedOf st
  compressions := l.filterMap fun k => (infoOf st k).compressionAt.map fun t => (k, t)
  banishment := l.filterMap fun k => (infoOf st k).banishmentAt.map fun t => (k, t)
  downgrades := l.filterMap fun k => (infoOf st k).downgradeAt.map fun t => (k, (infoOf st k).status, t)
  transitions := l.filterMap fun k => (infoOf st k).transition.map fun t => (k, t)

variable {st : KV Nat Info}

theorem filterMap_snoc {α β : Type} (f : α → Option β) (l : List α) (a : α) : (l ++ [a]).filterMap f = l.filterMap f ++ (f a).toList := by
  rw [List.filterMap_append]
  cases h : f a <;> simp [h]

/-- Visiting -/
theorem visit_fold : ∀ (m l o : List Key), m.foldl (visit st) ({ fileOf st l with other := o.filterMap (entryOf st) }, []) =
    ({ fileOf st (l ++ m) with other := o.filterMap (entryOf st) }, m.filterMap (entryOf st)) := by
  intro m
  induction m using List.reverseRecOn with
  | nil => intro l o; simp
  | append_singleton m a ih =>
    intro l o
    rw [List.foldl_append, ih, List.foldl_cons, List.foldl_nil, filterMap_snoc]
    unfold visit
    dsimp only
    simp only [fileOf, ← List.append_assoc, filterMap_snoc]
    congr 1
    unfold entryOf
    split <;> simp

theorem flat_entries (l : List Key) : ((l.filterMap (entryOf st)).flatMap (·.2)) = l.flatMap fun k => (infoOf st k).referrals := by
  induction l with
  | nil => rfl
  | cons a l ih =>
    rw [List.flatMap_cons, ← ih]
    unfold entryOf
    by_cases h : (infoOf st a).referrals = []
    · simp [h]
    · simp [h]

/-- The loop ends when a level is empty. -/
theorem levels_run (d : Nat) (hd : level st d = []) : ∀ (n i : Nat), i < d → d - i ≤ n →
    levels st n ({ fileOf st (upTo st (i + 1)) with other := (upTo st i).filterMap (entryOf st) }, (level st i).filterMap (entryOf st)) =
      some (fileOf st (upTo st d)) := by
  intro n
  induction n with
  | zero => intro i h1 h2; omega
  | succ n ih =>
    intro i h1 h2
    unfold levels
    dsimp only
    split
    · rename_i hemp
      have hemp : (level st i).filterMap (entryOf st) = [] := by simpa using hemp
      have hnext : level st (i + 1) = [] := by
        show (level st i).flatMap _ = []
        rw [← flat_entries, hemp]; rfl
      have hall : ∀ j, i + 1 ≤ j → upTo st j = upTo st (i + 1) ∧ level st j = [] := by
        intro j hj
        induction j, hj using Nat.le_induction with
        | base => exact ⟨rfl, hnext⟩
        | succ j hj ihj =>
          refine ⟨?_, ?_⟩
          · show upTo st j ++ level st j = _
            rw [ihj.2, List.append_nil, ihj.1]
          · show (level st j).flatMap _ = []
            rw [ihj.2]; rfl
      rw [(hall d h1).1]
      congr 1
      have : (fileOf st (upTo st (i + 1))).other = (upTo st i).filterMap (entryOf st) := by
        show (upTo st i ++ level st i).filterMap _ = _
        rw [List.filterMap_append, hemp, List.append_nil]
      rw [← this]
    · rename_i hne
      rw [flat_entries]
      have h3 : ({ fileOf st (upTo st (i + 1)) with other := (upTo st i).filterMap (entryOf st) ++ (level st i).filterMap (entryOf st) } :
          GenesisFile) = { fileOf st (upTo st (i + 1)) with other := (upTo st (i + 1)).filterMap (entryOf st) } := by
        rw [← List.filterMap_append]; rfl
      have h4 := visit_fold (st := st) (level st (i + 1)) (upTo st (i + 1)) (upTo st (i + 1))
      have h5 : i + 1 ≠ d := by
        intro h
        apply hne
        rw [← h] at hd
        have : (level st i).flatMap (fun k => (infoOf st k).referrals) = [] := hd
        rw [← flat_entries] at this
        cases hl : (level st i).filterMap (entryOf st) with
        | nil => rfl
        | cons x l =>
          exfalso
          rw [hl] at this
          simp at this
          have hx : x ∈ (level st i).filterMap (entryOf st) := by rw [hl]; simp
          rw [List.mem_filterMap] at hx
          obtain ⟨k, -, hk⟩ := hx
          unfold entryOf at hk
          split at hk
          · cases hk
          · rename_i hkk
            injection hk with hk
            rw [← hk] at this
            have h7 : (infoOf st k).referrals = [] := this.1
            exact hkk (by rw [h7]; rfl)
      rw [h3]
      have h6 := ih (i + 1) (by omega) (by omega)
      rw [← h6]
      congr 1

theorem mem_topLevel {k : Key} : k ∈ topLevelOf st ↔ st.has k = true ∧ (infoOf st k).banished = false ∧ (infoOf st k).referrer = none := by
  unfold topLevelOf
  rw [List.mem_map]
  constructor
  · rintro ⟨⟨a, v⟩, h, rfl⟩
    rw [List.mem_filter] at h
    have h1 := KV.mem_entries.1 h.1
    have h2 : infoOf st a = v := by unfold infoOf; rw [h1]; rfl
    have h3 := h.2
    simp at h3
    show st.has a = true ∧ (infoOf st a).banished = false ∧ (infoOf st a).referrer = none
    rw [h2]
    exact ⟨by unfold KV.has; rw [h1]; rfl, h3.1, h3.2⟩
  · rintro ⟨h1, h2, h3⟩
    unfold KV.has at h1
    rw [Option.isSome_iff_exists] at h1
    obtain ⟨v, hv⟩ := h1
    have h4 : infoOf st k = v := by unfold infoOf; rw [hv]; rfl
    rw [h4] at h2 h3
    exact ⟨(k, v), List.mem_filter.2 ⟨KV.mem_entries.2 hv, by simp [h2, h3]⟩, rfl⟩

theorem keys_nodup (l : List (Nat × Info)) (h : SortedKeys l) : (l.map (·.1)).Nodup := by
  rw [List.nodup_iff_pairwise_ne, List.pairwise_map]
  exact h.imp fun {a b} hab => ne_of_lt hab

theorem topLevel_nodup : (topLevelOf st).Nodup := by
  unfold topLevelOf
  exact keys_nodup _ (List.Pairwise.sublist List.filter_sublist st.sorted)

section
variable (hc : Consistent st)
include hc

theorem level_live : ∀ (n : Nat) (k : Key), k ∈ level st n → st.has k = true ∧ (infoOf st k).banished = false := by
  intro n
  induction n with
  | zero => intro k hk; exact ⟨(mem_topLevel.1 hk).1, (mem_topLevel.1 hk).2.1⟩
  | succ n ih =>
    intro k hk
    obtain ⟨p, hp, hk⟩ := List.mem_flatMap.1 hk
    obtain ⟨h1, h2⟩ := hc.nowhere k p hk
    refine ⟨?_, h2⟩
    by_contra hn
    rw [infoOf_of_not_has (by simpa using hn)] at h1
    cases h1

/-- An account is at one level only. -/
theorem level_unique : ∀ (n m : Nat) (k : Key), k ∈ level st n → k ∈ level st m → n = m := by
  intro n
  induction n with
  | zero =>
    intro m k h1 h2
    cases m with
    | zero => rfl
    | succ m =>
      obtain ⟨p, hp, hk⟩ := List.mem_flatMap.1 h2
      have := (hc.nowhere k p hk).1
      rw [(mem_topLevel.1 h1).2.2] at this
      cases this
  | succ n ih =>
    intro m k h1 h2
    obtain ⟨p, hp, hk⟩ := List.mem_flatMap.1 h1
    cases m with
    | zero =>
      have := (hc.nowhere k p hk).1
      rw [(mem_topLevel.1 h2).2.2] at this
      cases this
    | succ m =>
      obtain ⟨q, hq, hk'⟩ := List.mem_flatMap.1 h2
      have e1 := (hc.nowhere k p hk).1
      have e2 := (hc.nowhere k q hk').1
      rw [e1] at e2
      injection e2 with e2
      subst e2
      rw [ih m p hp hq]

theorem level_nodup : ∀ (n : Nat), (level st n).Nodup := by
  intro n
  induction n with
  | zero => exact topLevel_nodup
  | succ n ih =>
    show ((level st n).flatMap fun k => (infoOf st k).referrals).Nodup
    rw [List.nodup_flatMap]
    refine ⟨fun p _ => hc.once p, ?_⟩
    refine ih.imp fun {a b} hab => ?_
    intro x hx hy
    have e1 := (hc.nowhere x a hx).1
    have e2 := (hc.nowhere x b hy).1
    rw [e1] at e2
    injection e2 with e2
    exact hab e2

omit hc in
theorem mem_upTo {n : Nat} {k : Key} : k ∈ upTo st n ↔ ∃ i, i < n ∧ k ∈ level st i := by
  induction n with
  | zero => simp [upTo]
  | succ n ih =>
    show k ∈ upTo st n ++ level st n ↔ _
    rw [List.mem_append, ih]
    constructor
    · rintro (⟨i, h1, h2⟩ | h)
      · exact ⟨i, by omega, h2⟩
      · exact ⟨n, by omega, h⟩
    · rintro ⟨i, h1, h2⟩
      by_cases h : i = n
      · subst h; exact .inr h2
      · exact .inl ⟨i, by omega, h2⟩

theorem upTo_nodup : ∀ (n : Nat), (upTo st n).Nodup := by
  intro n
  induction n with
  | zero => exact List.nodup_nil
  | succ n ih =>
    show (upTo st n ++ level st n).Nodup
    rw [List.nodup_append]
    refine ⟨ih, level_nodup hc n, ?_⟩
    intro a ha b hb e
    subst e
    obtain ⟨i, hi, h⟩ := mem_upTo.1 ha
    have := level_unique hc _ _ _ h hb
    omega

theorem upTo_length (n : Nat) : (upTo st n).length ≤ st.entries.length := by
  have h : (upTo st n).length ≤ (st.entries.map (·.1)).length := by
    refine (List.subperm_of_subset (upTo_nodup hc n) ?_).length_le
    intro k hk
    obtain ⟨i, -, h⟩ := mem_upTo.1 hk
    have h1 := (level_live hc i k h).1
    unfold KV.has at h1
    rw [Option.isSome_iff_exists] at h1
    obtain ⟨v, hv⟩ := h1
    exact List.mem_map.2 ⟨(k, v), KV.mem_entries.2 hv, rfl⟩
  simpa using h

/-- There is an empty level not beyond the number of accounts. -/
theorem level_empty : level st st.entries.length = [] := by
  by_contra hne
  have hall : ∀ i, i ≤ st.entries.length → level st i ≠ [] := by
    intro i hi he
    have : ∀ j, i ≤ j → level st j = [] := by
      intro j hj
      induction j, hj using Nat.le_induction with
      | base => exact he
      | succ j hj ihj => show (level st j).flatMap _ = []; rw [ihj]; rfl
    exact hne (this _ hi)
  have hlen : ∀ i, i ≤ st.entries.length + 1 → i ≤ (upTo st i).length := by
    intro i
    induction i with
    | zero => intro _; exact Nat.zero_le _
    | succ i ih =>
      intro hi
      have h1 := ih (by omega)
      have h2 := List.length_pos_iff.2 (hall i (by omega))
      show i + 1 ≤ (upTo st i ++ level st i).length
      rw [List.length_append]; omega
  have h1 := hlen _ (Nat.le_refl _)
  have h2 := upTo_length hc (st.entries.length + 1)
  omega

/-- The accounts in the order in which they are visited -/
theorem export_eq : exportGenesis st = some (fileOf st (upTo st (st.entries.length + 1))) := by
  unfold exportGenesis
  have h0 := visit_fold (st := st) (topLevelOf st) [] []
  have h1 : ({ topLevel := topLevelOf st, banished := banishedOf st } : GenesisFile) =
      { fileOf st [] with other := ([] : List Key).filterMap (entryOf st) } := rfl
  rw [h1, h0]
  have he := level_empty hc
  have hd : level st (st.entries.length + 1) = [] := by
    show (level st st.entries.length).flatMap _ = []; rw [he]; rfl
  exact levels_run (st.entries.length + 1) hd (st.entries.length + 1) 0 (by omega) (by omega)

/-- Every account is at some level, unless it is banished or below a banished one. -/
theorem level_reach (ha : ∀ c, Acc (treeOf (view st)).over c) (hb : ∀ k, (infoOf st k).banished = true → (infoOf st k).referrals = [])
    (k : Key) (h : st.has k = true) (hk : (infoOf st k).banished = false) (hh : ∀ c p, (infoOf st c).referrer = some p → st.has p = true) :
    ∃ n, k ∈ level st n := by
  revert h hk
  induction ha k with
  | intro k _ ih =>
    intro h hk
    cases hr : (infoOf st k).referrer with
    | none => exact ⟨0, mem_topLevel.2 ⟨h, hk, hr⟩⟩
    | some p =>
      have hm := hc.listed k p hr hk
      have hp : (infoOf st p).banished = false := by
        cases hpb : (infoOf st p).banished with
        | false => rfl
        | true => rw [hb p hpb] at hm; cases hm
      obtain ⟨n, hn⟩ := ih p hr (hh k p hr) hp
      exact ⟨n + 1, List.mem_flatMap.2 ⟨p, hn, hm⟩⟩

end

end Verif.Referral
