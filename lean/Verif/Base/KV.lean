import Mathlib.Order.Defs.LinearOrder
import Mathlib.Order.Basic
import Mathlib.Algebra.Order.Group.Int
import Mathlib.Tactic.Ring

/-!
Key-value store: a list of entries with strictly increasing keys, i.e. what iterating over a Cosmos SDK
`KVStore` (or a prefix of it) yields.  Models `store.Get`, `store.Set`, `store.Delete` and iteration.
-/
namespace Verif

/-- Strictly increasing keys. -/
def SortedKeys {K V : Type} [LT K] (l : List (K × V)) : Prop := l.Pairwise (fun a b => a.1 < b.1)

structure KV (K V : Type) [LT K] where
  entries : List (K × V)
  sorted : SortedKeys entries

namespace KV
variable {K V : Type} [LinearOrder K]

instance [DecidableEq V] : DecidableEq (KV K V) := fun a b =>
  if h : a.entries = b.entries then isTrue (by cases a; cases b; cases h; rfl)
  else isFalse (fun e => h (by rw [e]))

def empty : KV K V := ⟨[], List.Pairwise.nil⟩

instance : Inhabited (KV K V) := ⟨empty⟩

/-! list level -/

def getL (k : K) : List (K × V) → Option V
  | [] => none
  | (k', v) :: t => if k = k' then some v else getL k t

def setL (k : K) (v : V) : List (K × V) → List (K × V)
  | [] => [(k, v)]
  | (k', v') :: t =>
    if k < k' then (k, v) :: (k', v') :: t
    else if k = k' then (k, v) :: t
    else (k', v') :: setL k v t

def eraseL (k : K) : List (K × V) → List (K × V)
  | [] => []
  | (k', v) :: t => if k = k' then t else (k', v) :: eraseL k t

theorem mem_setL {k : K} {v : V} {l : List (K × V)} {e : K × V} (h : e ∈ setL k v l) :
    e = (k, v) ∨ e ∈ l := by
  induction l with
  | nil => simp [setL] at h; exact Or.inl h
  | cons a t ih =>
    obtain ⟨k', v'⟩ := a
    simp only [setL] at h
    split at h
    · simp only [List.mem_cons] at h ⊢; exact h
    · split at h
      · simp only [List.mem_cons] at h ⊢; tauto
      · simp only [List.mem_cons] at h ⊢
        rcases h with h | h
        · tauto
        · rcases ih h with h | h <;> tauto

theorem sorted_setL (k : K) (v : V) {l : List (K × V)} (h : SortedKeys l) : SortedKeys (setL k v l) := by
  induction l with
  | nil => simp [setL, SortedKeys]
  | cons a t ih =>
    obtain ⟨k', v'⟩ := a
    unfold SortedKeys at *
    simp only [List.pairwise_cons] at h
    simp only [setL]
    split
    · rename_i hk
      simp only [List.pairwise_cons, List.mem_cons]
      refine ⟨?_, h⟩
      rintro e (rfl | he)
      · exact hk
      · exact lt_trans hk (h.1 e he)
    · split
      · rename_i hk; subst hk
        simp only [List.pairwise_cons]; exact h
      · rename_i h1 h2
        simp only [List.pairwise_cons]
        refine ⟨?_, ih h.2⟩
        intro e he
        rcases mem_setL he with rfl | he
        · exact lt_of_le_of_ne (not_lt.1 h1) (Ne.symm h2)
        · exact h.1 e he

theorem eraseL_sublist (k : K) (l : List (K × V)) : (eraseL k l).Sublist l := by
  induction l with
  | nil => simp [eraseL]
  | cons a t ih =>
    obtain ⟨k', v'⟩ := a
    simp only [eraseL]
    split
    · exact List.sublist_cons_self _ _
    · exact ih.cons_cons _

theorem getL_none_of_lt {k : K} {l : List (K × V)} (h : ∀ e ∈ l, k < e.1) : getL k l = none := by
  induction l with
  | nil => rfl
  | cons a t ih =>
    obtain ⟨k', v'⟩ := a
    have := h (k', v') (by simp)
    simp only [getL, if_neg (ne_of_lt this)]
    exact ih (fun e he => h e (by simp [he]))

theorem getL_setL (k j : K) (v : V) (l : List (K × V)) :
    getL j (setL k v l) = if j = k then some v else getL j l := by
  induction l with
  | nil => simp [setL, getL]
  | cons a t ih =>
    obtain ⟨k', v'⟩ := a
    simp only [setL]
    split
    · simp only [getL]
    · split
      · rename_i hk; subst hk
        simp only [getL]; split <;> rfl
      · rename_i hk
        simp only [getL, ih]
        split
        · rename_i h1; subst h1; rw [if_neg (Ne.symm hk)]
        · rfl

theorem getL_eraseL (k j : K) {l : List (K × V)} (h : SortedKeys l) :
    getL j (eraseL k l) = if j = k then none else getL j l := by
  induction l with
  | nil => simp [eraseL, getL]
  | cons a t ih =>
    obtain ⟨k', v'⟩ := a
    unfold SortedKeys at *
    simp only [List.pairwise_cons] at h
    simp only [eraseL]
    split
    · rename_i hk; subst hk
      split
      · rename_i hj; subst hj; exact getL_none_of_lt h.1
      · rename_i hj; simp [getL, hj]
    · rename_i hk
      simp only [getL, ih h.2]
      split
      · rename_i h1; subst h1; rw [if_neg (Ne.symm hk)]
      · rfl

theorem mem_iff_getL {k : K} {v : V} {l : List (K × V)} (h : SortedKeys l) :
    (k, v) ∈ l ↔ getL k l = some v := by
  induction l with
  | nil => simp [getL]
  | cons a t ih =>
    obtain ⟨k', v'⟩ := a
    unfold SortedKeys at *
    simp only [List.pairwise_cons] at h
    simp only [List.mem_cons, getL]
    split
    · rename_i hk; subst hk
      constructor
      · rintro (h1 | h1)
        · simp only [Prod.mk.injEq] at h1; rw [h1.2]
        · exact absurd (h.1 _ h1) (lt_irrefl _)
      · intro h1; left; simp only [Option.some.injEq] at h1; rw [h1]
    · rename_i hk
      rw [← ih h.2]
      constructor
      · rintro (h1 | h1)
        · simp only [Prod.mk.injEq] at h1; exact absurd h1.1 hk
        · exact h1
      · exact Or.inr

theorem extL {l m : List (K × V)} (hl : SortedKeys l) (hm : SortedKeys m)
    (h : ∀ k, getL k l = getL k m) : l = m := by
  induction l generalizing m with
  | nil =>
    cases m with
    | nil => rfl
    | cons b m => have := h b.1; simp [getL] at this
  | cons a l ih =>
    cases m with
    | nil => have := h a.1; simp [getL] at this
    | cons b m =>
      obtain ⟨ka, va⟩ := a
      obtain ⟨kb, vb⟩ := b
      unfold SortedKeys at *
      simp only [List.pairwise_cons] at hl hm
      have hk : ka = kb := by
        rcases lt_trichotomy ka kb with hlt | heq | hgt
        · have h1 := h ka
          have h2 : getL ka m = none := getL_none_of_lt (fun e he => lt_trans hlt (hm.1 e he))
          simp [getL, ne_of_lt hlt, h2] at h1
        · exact heq
        · have h1 := h kb
          have h2 : getL kb l = none := getL_none_of_lt (fun e he => lt_trans hgt (hl.1 e he))
          simp [getL, ne_of_lt hgt, h2] at h1
      subst hk
      have hv : va = vb := by have := h ka; simpa [getL] using this
      subst hv
      rw [ih hl.2 hm.2]
      intro k
      by_cases hk : k = ka
      · subst hk
        rw [getL_none_of_lt hl.1, getL_none_of_lt hm.1]
      · have := h k; simpa [getL, hk] using this

/-! store level -/

/-- `store.Get` (absent = `none`). -/
def get (m : KV K V) (k : K) : Option V := getL k m.entries
/-- `store.Set`. -/
def set (m : KV K V) (k : K) (v : V) : KV K V := ⟨setL k v m.entries, sorted_setL k v m.sorted⟩
/-- `store.Delete`. -/
def erase (m : KV K V) (k : K) : KV K V :=
  ⟨eraseL k m.entries, List.Pairwise.sublist (eraseL_sublist k m.entries) m.sorted⟩
/-- `store.Has`. -/
def has (m : KV K V) (k : K) : Bool := (m.get k).isSome
/-- Keys in iteration order. -/
def keys (m : KV K V) : List K := m.entries.map Prod.fst
/-- Values in iteration order. -/
def values (m : KV K V) : List V := m.entries.map Prod.snd

@[simp] theorem get_empty (k : K) : (empty : KV K V).get k = none := rfl

theorem get_set (m : KV K V) (k j : K) (v : V) :
    (m.set k v).get j = if j = k then some v else m.get j := getL_setL k j v _

@[simp] theorem get_set_self (m : KV K V) (k : K) (v : V) : (m.set k v).get k = some v := by simp [get_set]

theorem get_set_ne (m : KV K V) {k j : K} (v : V) (h : j ≠ k) : (m.set k v).get j = m.get j := by
  simp [get_set, h]

theorem get_erase (m : KV K V) (k j : K) : (m.erase k).get j = if j = k then none else m.get j :=
  getL_eraseL k j m.sorted

@[simp] theorem get_erase_self (m : KV K V) (k : K) : (m.erase k).get k = none := by simp [get_erase]

theorem get_erase_ne (m : KV K V) {k j : K} (h : j ≠ k) : (m.erase k).get j = m.get j := by
  simp [get_erase, h]

theorem mem_entries {m : KV K V} {k : K} {v : V} : (k, v) ∈ m.entries ↔ m.get k = some v :=
  mem_iff_getL m.sorted

theorem mem_keys {m : KV K V} {k : K} : k ∈ m.keys ↔ ∃ v, m.get k = some v := by
  unfold keys
  simp only [List.mem_map]
  constructor
  · rintro ⟨⟨a, v⟩, h, rfl⟩; exact ⟨v, mem_entries.1 h⟩
  · rintro ⟨v, h⟩; exact ⟨(k, v), mem_entries.2 h, rfl⟩

theorem ext {m n : KV K V} (h : ∀ k, m.get k = n.get k) : m = n := by
  have : m.entries = n.entries := extL m.sorted n.sorted h
  cases m; cases n; cases this; rfl

theorem keys_nodup (m : KV K V) : m.keys.Nodup := by
  unfold keys List.Nodup
  rw [List.pairwise_map]
  exact m.sorted.imp (fun h => ne_of_lt h)

theorem keys_sorted (m : KV K V) : m.keys.Pairwise (· < ·) := by
  unfold keys
  rw [List.pairwise_map]
  exact m.sorted

theorem set_get_eq {m : KV K V} {k : K} {v : V} (h : m.get k = some v) : m.set k v = m := by
  apply ext; intro j; rw [get_set]; split
  · rename_i hj; rw [hj, h]
  · rfl

theorem set_set (m : KV K V) (k : K) (v w : V) : (m.set k v).set k w = m.set k w := by
  apply ext; intro j; simp only [get_set]; split <;> rfl

theorem erase_of_none {m : KV K V} {k : K} (h : m.get k = none) : m.erase k = m := by
  apply ext; intro j; rw [get_erase]; split
  · rename_i hj; rw [hj, h]
  · rfl

/-! sums over entries -/

/-- Sum of `f` over the entries. -/
def sum (f : K → V → Int) (m : KV K V) : Int := (m.entries.map (fun e => f e.1 e.2)).sum

/-- Contribution of a possibly absent entry. -/
def part (f : K → V → Int) (k : K) : Option V → Int
  | none => 0
  | some v => f k v

omit [LinearOrder K] in
@[simp] theorem part_none (f : K → V → Int) (k : K) : part f k none = 0 := rfl
omit [LinearOrder K] in
@[simp] theorem part_some (f : K → V → Int) (k : K) (v : V) : part f k (some v) = f k v := rfl

@[simp] theorem sum_empty (f : K → V → Int) : sum f (empty : KV K V) = 0 := rfl

theorem sum_setL (f : K → V → Int) (k : K) (v : V) {l : List (K × V)} (h : SortedKeys l) :
    ((setL k v l).map (fun e => f e.1 e.2)).sum
      = (l.map (fun e => f e.1 e.2)).sum - part f k (getL k l) + f k v := by
  induction l with
  | nil => simp [setL, getL]
  | cons a t ih =>
    obtain ⟨k', v'⟩ := a
    unfold SortedKeys at *
    have h0 := h
    simp only [List.pairwise_cons] at h
    simp only [setL]
    split
    · rename_i hk
      have hn : getL k ((k', v') :: t) = none := by
        apply getL_none_of_lt
        intro e he
        simp only [List.mem_cons] at he
        rcases he with rfl | he
        · exact hk
        · exact lt_trans hk (h.1 e he)
      rw [hn]; simp only [List.map_cons, List.sum_cons, part_none]; ring
    · split
      · rename_i hk; subst hk
        simp only [List.map_cons, List.sum_cons, getL, if_true, part_some]; ring
      · rename_i hk
        simp only [List.map_cons, List.sum_cons, getL, if_neg hk, ih h.2]; ring

theorem sum_eraseL (f : K → V → Int) (k : K) {l : List (K × V)} :
    ((eraseL k l).map (fun e => f e.1 e.2)).sum
      = (l.map (fun e => f e.1 e.2)).sum - part f k (getL k l) := by
  induction l with
  | nil => simp [eraseL, getL]
  | cons a t ih =>
    obtain ⟨k', v'⟩ := a
    simp only [eraseL]
    split
    · rename_i hk; subst hk
      simp only [List.map_cons, List.sum_cons, getL, if_true, part_some]; ring
    · rename_i hk
      simp only [List.map_cons, List.sum_cons, getL, if_neg hk, ih]; ring

theorem sum_set (f : K → V → Int) (m : KV K V) (k : K) (v : V) :
    sum f (m.set k v) = sum f m - part f k (m.get k) + f k v := sum_setL f k v m.sorted

theorem sum_erase (f : K → V → Int) (m : KV K V) (k : K) :
    sum f (m.erase k) = sum f m - part f k (m.get k) := sum_eraseL f k

theorem sum_congr {f g : K → V → Int} {m : KV K V} (h : ∀ k v, m.get k = some v → f k v = g k v) :
    sum f m = sum g m := by
  unfold sum
  congr 1
  apply List.map_congr_left
  rintro ⟨k, v⟩ he
  exact h k v (mem_entries.1 he)

theorem sum_nonneg {f : K → V → Int} {m : KV K V} (h : ∀ k v, m.get k = some v → 0 ≤ f k v) :
    0 ≤ sum f m := by
  unfold sum
  have : ∀ e ∈ m.entries, 0 ≤ f e.1 e.2 := fun e he => h e.1 e.2 (mem_entries.1 he)
  generalize m.entries = l at this
  induction l with
  | nil => simp
  | cons a t ih =>
    simp only [List.map_cons, List.sum_cons]
    have h1 := this a (by simp)
    have h2 := ih (fun e he => this e (by simp [he]))
    omega

/-- One entry is at most the sum of all, when all are non-negative. -/
theorem part_le_sum {f : K → V → Int} {m : KV K V} (h : ∀ k v, m.get k = some v → 0 ≤ f k v) (k : K) :
    part f k (m.get k) ≤ sum f m := by
  have h1 := sum_erase f m k
  have h2 : 0 ≤ sum f (m.erase k) := by
    apply sum_nonneg; intro j v hj
    rw [get_erase] at hj
    split at hj
    · simp at hj
    · exact h j v hj
  omega

theorem sum_add (f g : K → V → Int) (m : KV K V) :
    sum (fun k v => f k v + g k v) m = sum f m + sum g m := by
  unfold sum
  generalize m.entries = l
  induction l with
  | nil => simp
  | cons a t ih => simp only [List.map_cons, List.sum_cons, ih]; ring

end KV
end Verif
