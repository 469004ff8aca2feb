import Verif.Noding.Model
import Verif.Util.Lemmas
import Mathlib.Algebra.Order.BigOperators.Group.List
import Mathlib.Tactic.Linarith
import Mathlib.Tactic.Positivity

/-! Facts about the voting power generator (keeper/vp_generator.go) and the distribution check (types/types.go). -/
namespace Verif.Noding
open Verif.Util

/-- The share of the first `n` slices. -/
def upTo (d : Distribution) (n : Nat) : ℚ := ((d.slices.take n).map fun x => x.part.toRat).sum

/-- What acceptance of a distribution means. -/
structure DistrOk (d : Distribution) : Prop where
  lucky : 0 < d.luckyPower
  nonempty : d.slices ≠ []
  power : ∀ x ∈ d.slices, 0 < x.power
  denom : ∀ x ∈ d.slices, x.part.denom ≠ 0
  part : ∀ x ∈ d.slices, 0 < x.part.toRat
  total : upTo d d.slices.length = 1

theorem isPositive_denom {x : Frac} (h : x.isPositive = true) : x.denom ≠ 0 := by
  intro h0
  simp [Frac.isPositive, h0] at h

theorem sumParts?_ok {l : List Slice} : ∀ {acc t : Frac}, acc.denom ≠ 0 → sumParts? acc l = some (some t) →
    t.denom ≠ 0 ∧ (∀ x ∈ l, 0 < x.power ∧ x.part.denom ≠ 0 ∧ 0 < x.part.toRat) ∧
      t.toRat = acc.toRat + (l.map fun x => x.part.toRat).sum := by
  induction l with
  | nil =>
    intro acc t ha h
    simp only [sumParts?, Option.some.injEq] at h
    subst h
    simp [ha]
  | cons x r ih =>
    intro acc t ha h
    unfold sumParts? at h
    split at h
    · simp at h
    · rename_i hp
      split at h
      · simp at h
      · rename_i hq
        simp only [Bool.not_eq_true, Bool.not_eq_false'] at hq
        have hd := isPositive_denom hq
        obtain ⟨z, hz, hz0, -, -, -, hzr⟩ := Frac.add?_spec acc x.part ha hd
        rw [hz] at h
        obtain ⟨h1, h2, h3⟩ := ih hz0.ne' h
        refine ⟨h1, ?_, ?_⟩
        · intro y hy
          rcases List.mem_cons.1 hy with rfl | hy
          · exact ⟨by omega, hd, (Frac.isPositive_iff _ hd).1 hq⟩
          · exact h2 y hy
        · rw [h3, hzr]; simp only [List.map_cons, List.sum_cons]; ring

theorem DistrOk.of_validate {d : Distribution} (h : d.validate? = some true) : DistrOk d := by
  unfold Distribution.validate? at h
  split at h
  · simp at h
  · rename_i hl
    split at h
    · simp at h
    · rename_i he
      simp only [Option.bind_eq_bind] at h
      cases hs : sumParts? (Frac.ofInt 0) d.slices with
      | none => simp [hs] at h
      | some o =>
        cases o with
        | none => simp [hs] at h
        | some t =>
          simp only [hs, Option.bind_some] at h
          obtain ⟨h1, h2, h3⟩ := sumParts?_ok (by simp [Frac.ofInt]) hs
          rw [Frac.equal?_spec t _ h1 (by simp [Frac.ofInt])] at h
          simp only [Option.some.injEq, decide_eq_true_eq] at h
          refine ⟨by omega, by simpa using he, fun x hx => (h2 x hx).1, fun x hx => (h2 x hx).2.1, fun x hx => (h2 x hx).2.2, ?_⟩
          have e0 : (Frac.ofInt 0).toRat = 0 := by simp [Frac.ofInt, Frac.toRat]
          have e1 : (Frac.ofInt 1).toRat = 1 := by simp [Frac.ofInt, Frac.toRat]
          rw [h3, e0, e1] at h
          simpa [upTo] using h

theorem upTo_succ {d : Distribution} {n : Nat} {x : Slice} (h : d.slices[n]? = some x) :
    upTo d (n + 1) = upTo d n + x.part.toRat := by
  unfold upTo
  rw [List.take_succ, h]
  simp

theorem upTo_of_ge {d : Distribution} {n : Nat} (h : d.slices.length ≤ n) : upTo d n = upTo d d.slices.length := by
  unfold upTo
  rw [List.take_of_length_le h, List.take_length]

/-- The generator after at least one call. -/
structure GenOk (d : Distribution) (g : Gen) : Prop where
  started : 1 ≤ g.count
  inside : g.ptr < d.slices.length
  denom : g.partAccum.denom ≠ 0
  accum : g.partAccum.toRat = upTo d (g.ptr + 1)

/-- Powers for a sequence of scores. -/
def assign? (max : Nat) (d : Distribution) : Gen → List Int → Option (List Int × Gen)
  | g, [] => some ([], g)
  | g, x :: l => do
    let (p, g') ← g.next? max d x
    let (ps, g'') ← assign? max d g' l
    some (p :: ps, g'')

theorem next?_later {d : Distribution} (hd : DistrOk d) {max : Nat} {g : Gen} (hg : GenOk d g) (score : Int) :
    ∃ p g', g.next? max d score = some (p, g') ∧ GenOk d g' ∧ g'.count = g.count + 1 ∧ g'.lastScore = score ∧
      (g'.ptr = g.ptr ∨ g'.ptr = g.ptr + 1) ∧
      (max ≤ g.count → p = d.luckyPower) ∧
      (g.count < max → (d.slices[g'.ptr]?).map Slice.power = some p ∧
        (g'.ptr = g.ptr ↔ score = g.lastScore ∨ ((g.count + 1 : ℕ) : ℚ) / (max : ℚ) ≤ upTo d (g.ptr + 1))) := by
  unfold Gen.next?
  by_cases hm : g.count + 1 > max
  · simp only [hm, if_true]
    exact ⟨_, _, rfl, ⟨by simp, hg.inside, hg.denom, hg.accum⟩, rfl, rfl, Or.inl rfl, fun _ => rfl, fun h => by omega⟩
  · have h1 : ¬ g.count + 1 = 1 := by have := hg.started; omega
    simp only [hm, h1, if_false]
    have hmax : (max : Int) ≠ 0 := by omega
    rw [Frac.lte?_spec _ _ (by exact hmax) hg.denom]
    simp only [Option.bind_eq_bind, Option.bind_some]
    have efr : (Frac.mk ((g.count + 1 : ℕ) : Int) (max : Int)).toRat = ((g.count + 1 : ℕ) : ℚ) / (max : ℚ) := by
      simp [Frac.toRat]
    rw [efr, hg.accum]
    by_cases hc : score = g.lastScore ∨ ((g.count + 1 : ℕ) : ℚ) / (max : ℚ) ≤ upTo d (g.ptr + 1)
    · have : (decide (((g.count + 1 : ℕ) : ℚ) / (max : ℚ) ≤ upTo d (g.ptr + 1)) || score == g.lastScore) = true := by
        rcases hc with h | h
        · simp [h]
        · simp only [h, decide_true, Bool.true_or]
      rw [if_pos this]
      have hx := List.getElem?_eq_getElem hg.inside
      rw [hx]
      refine ⟨_, _, rfl, ⟨by simp, hg.inside, hg.denom, hg.accum⟩, rfl, rfl, Or.inl rfl, fun h => by omega, fun _ => ⟨?_, ?_⟩⟩
      · simp [hx]
      · simp only [true_iff]; exact hc
    · have : ¬ (decide (((g.count + 1 : ℕ) : ℚ) / (max : ℚ) ≤ upTo d (g.ptr + 1)) || score == g.lastScore) = true := by
        rw [not_or] at hc
        simp only [Bool.or_eq_true, decide_eq_true_eq, beq_iff_eq, not_or]
        exact ⟨hc.2, hc.1⟩
      rw [if_neg this]
      rw [not_or] at hc
      have hlt : upTo d (g.ptr + 1) < 1 := by
        refine lt_of_lt_of_le (not_le.1 hc.2) ?_
        have hmp : (0 : ℚ) < max := by
          have : 0 < max := by omega
          exact_mod_cast this
        rw [div_le_one hmp]
        have : g.count + 1 ≤ max := by omega
        exact_mod_cast this
      have hin : g.ptr + 1 < d.slices.length := by
        by_contra hno
        have := upTo_of_ge (d := d) (n := g.ptr + 1) (by omega)
        rw [this, hd.total] at hlt
        exact lt_irrefl _ hlt
      have hx := List.getElem?_eq_getElem hin
      have hmem : d.slices[g.ptr + 1] ∈ d.slices := List.getElem_mem ..
      obtain ⟨z, hz, hz0, -, -, -, hzr⟩ := Frac.add?_spec g.partAccum d.slices[g.ptr + 1].part hg.denom (hd.denom _ hmem)
      rw [hx]
      simp only [Option.bind_some, hz]
      refine ⟨_, _, rfl, ⟨by simp, hin, hz0.ne', ?_⟩, rfl, rfl, Or.inr rfl, fun h => by omega, fun _ => ⟨?_, ?_⟩⟩
      · rw [hzr, hg.accum, ← upTo_succ hx]
      · simp [hx]
      · simp only [Nat.succ_ne_self, false_iff, not_or]
        exact hc

theorem next?_first {d : Distribution} (hd : DistrOk d) {max : Nat} (hm : 0 < max) (score : Int) :
    ∃ p g', ({} : Gen).next? max d score = some (p, g') ∧ GenOk d g' ∧ g'.count = 1 ∧ g'.lastScore = score ∧ g'.ptr = 0 ∧
      (d.slices[0]?).map Slice.power = some p := by
  have hlen : 0 < d.slices.length := List.length_pos_of_ne_nil hd.nonempty
  have hx := List.getElem?_eq_getElem hlen
  have hmem : d.slices[0] ∈ d.slices := List.getElem_mem ..
  unfold Gen.next?
  have h1 : ¬ ({} : Gen).count + 1 > max := by show ¬ (0 + 1 > max); omega
  have h2 : ({} : Gen).count + 1 = 1 := rfl
  simp only [h1, h2, if_false, if_true, hx]
  refine ⟨_, _, rfl, ⟨le_refl _, hlen, hd.denom _ hmem, ?_⟩, rfl, rfl, rfl, rfl⟩
  show _ = upTo d (0 + 1)
  rw [upTo_succ hx]
  simp [upTo]

/-- The plan of the generator from some point on: `slice 0` is the slice of the previous position. -/
theorem assign?_later {d : Distribution} (hd : DistrOk d) {max : Nat} (scores : List Int) :
    ∀ {g : Gen}, GenOk d g → ∃ (ps : List Int) (g' : Gen) (slice : Nat → Nat), assign? max d g scores = some (ps, g') ∧
      GenOk d g' ∧ g'.count = g.count + scores.length ∧
      ps.length = scores.length ∧ slice 0 = g.ptr ∧ (∀ i, slice i < d.slices.length) ∧
      (∀ i, slice (i + 1) = slice i ∨ slice (i + 1) = slice i + 1) ∧
      (∀ i, i < scores.length → ps[i]? = if g.count + i < max then (d.slices[slice (i + 1)]?).map Slice.power else some d.luckyPower) ∧
      (∀ i, i < scores.length → g.count + i < max → (slice (i + 1) = slice i ↔
        scores[i]? = (g.lastScore :: scores)[i]? ∨ ((g.count + i + 1 : ℕ) : ℚ) / (max : ℚ) ≤ upTo d (slice i + 1))) := by
  induction scores with
  | nil =>
    intro g hg
    exact ⟨[], g, fun _ => g.ptr, rfl, hg, rfl, rfl, rfl, fun _ => hg.inside, fun _ => Or.inl rfl, fun _ h => by simp at h, fun _ h => by simp at h⟩
  | cons x l ih =>
    intro g hg
    obtain ⟨p, g', h1, h2, h3, h4, h5, h6, h7⟩ := next?_later hd (max := max) hg x
    obtain ⟨ps, g'', sl, q1, q0, q01, q2, q3, q4, q5, q6, q7⟩ := ih h2
    refine ⟨p :: ps, g'', fun i => match i with | 0 => g.ptr | j + 1 => sl j, ?_, q0, ?_, by simp [q2], rfl, ?_, ?_, ?_, ?_⟩
    · simp [assign?, h1, q1]
    · rw [q01, h3, List.length_cons]; omega
    · rintro (_ | j)
      · exact hg.inside
      · exact q4 j
    · rintro (_ | j)
      · show sl 0 = g.ptr ∨ sl 0 = g.ptr + 1
        rw [q3]; exact h5
      · exact q5 j
    · rintro (_ | j) hi
      · simp only [List.getElem?_cons_zero, Nat.add_zero, q3]
        split
        · rename_i hc; rw [(h7 hc).1]
        · rename_i hc; rw [h6 (by omega)]
      · simp only [List.getElem?_cons_succ]
        rw [q6 j (by simpa using hi), h3]
        have : g.count + 1 + j = g.count + (j + 1) := by omega
        rw [this]
    · rintro (_ | j) hi hc
      · simp only [List.getElem?_cons_zero, Nat.add_zero, q3, Option.some.injEq]
        exact (h7 hc).2
      · simp only [List.getElem?_cons_succ]
        have := q7 j (by simpa using hi) (by omega)
        rw [h3, h4] at this
        have e : g.count + 1 + j + 1 = g.count + (j + 1) + 1 := by omega
        rw [e] at this
        exact this

end Verif.Noding
