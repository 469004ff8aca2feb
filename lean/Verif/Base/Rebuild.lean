import Verif.Base.KV

/-! Rebuilding a store from its entries. -/
namespace Verif

/-- Storing the entries of a store one after another into an empty one yields that store again. -/
theorem KV.rebuild {K V W : Type} [LinearOrder K] (m : KV K V) (f : K × V → W) (g : W → K × V) (h : ∀ x ∈ m.entries, g (f x) = x) :
    (m.entries.map f).foldl (fun acc x => acc.set (g x).1 (g x).2) KV.empty = m := by
  have key : ∀ (l : List (K × V)) (acc : KV K V), SortedKeys l → (∀ x ∈ l, g (f x) = x) → ∀ k,
      ((l.map f).foldl (fun acc x => acc.set (g x).1 (g x).2) acc).get k = (KV.getL k l).or (acc.get k) := by
    intro l
    induction l with
    | nil => intro acc _ _ k; rfl
    | cons x l ih =>
      intro acc hs hg k
      have hs2 := List.pairwise_cons.1 hs
      rw [List.map_cons, List.foldl_cons, ih _ hs2.2 (fun y hy => hg y (by simp [hy])) k, hg x (by simp), KV.get_set]
      by_cases hk : k = x.1
      · rw [if_pos hk, hk, KV.getL_none_of_lt hs2.1]
        simp [KV.getL]
      · rw [if_neg hk]
        have : KV.getL k (x :: l) = KV.getL k l := by
          obtain ⟨k', v⟩ := x
          exact if_neg hk
        rw [this]
  refine KV.ext fun k => ?_
  rw [key m.entries KV.empty m.sorted h k]
  show (m.get k).or none = _
  cases m.get k <;> rfl

end Verif
