import Mathlib.Data.List.Perm.Basic
import Mathlib.Tactic.IntervalCases

/-!
Property C91: attributes of events show the texts of the message (`patchEvent`, /repo/util/msg_server.go:52-92).
-/
namespace Verif.Event

/-! ### Model

Texts are lists of characters (valid UTF-8).  Outside facts: `codec.ProtoMarshalJSON` writes strings and 64-bit numbers as JSON strings, the former escaped as
`encoding/json` does, with escaping for HTML; `json.Unmarshal` into `RawMessage` keeps the text of a value. -/

abbrev Text := List Char

/-- A hexadecimal digit -/
def hex (n : Nat) : Char := if n < 10 then Char.ofNat (48 + n) else Char.ofNat (87 + n)

/-- `\u` and four digits -/
def unicode (n : Nat) : Text := ['\\', 'u', hex (n / 4096 % 16), hex (n / 256 % 16), hex (n / 16 % 16), hex (n % 16)]

/-- How `encoding/json` writes a character in a string (`encodeState.string` of Go 1.15 with `escapeHTML`) -/
def escape (c : Char) : Text :=
  if c = '"' then ['\\', '"']
  else if c = '\\' then ['\\', '\\']
  else if c = '\n' then ['\\', 'n']
  else if c = '\r' then ['\\', 'r']
  else if c = '\t' then ['\\', 't']
  else if c.toNat < 32 ∨ c = '<' ∨ c = '>' ∨ c = '&' ∨ c.toNat = 8232 ∨ c.toNat = 8233 then unicode c.toNat
  else [c]

/-- A JSON string -/
def quote (s : Text) : Text := '"' :: s.flatMap escape ++ ['"']

/-- `strings.ReplaceAll` of two characters by one -/
def replace2 (a b c : Char) : Text → Text
  | x :: y :: l => if x = a ∧ y = b then c :: replace2 a b c l else x :: replace2 a b c (y :: l)
  | l => l

/-- The regular expression `^".*"$`, msg_server.go:70: a dot is anything but a new line. -/
def quoted (v : Text) : Bool :=
  decide (2 ≤ v.length) && v.head? == some '"' && v.getLast? == some '"' && !(v.drop 1).dropLast.contains '\n'

/-- The value of an attribute, msg_server.go:70-80 -/
def patch (v : Text) : Text :=
  if quoted v then replace2 '\\' '\\' '\\' (replace2 '\\' '"' '"' ((v.drop 1).dropLast)) else v

/-- The attributes, msg_server.go:65-86.  The loop takes the entries of a Go map in any order; this is the order given. -/
def attributes (fields : List (Text × Text)) : List (Text × Text) :=
  (fields.filter fun f => f.2 ≠ "null".toList).map fun f => (f.1, patch f.2)

/-! ### Specification -/

/-- Characters shown as they are -/
def Plain (c : Char) : Prop := 32 ≤ c.toNat ∧ c ≠ '<' ∧ c ≠ '>' ∧ c ≠ '&' ∧ c.toNat ≠ 8232 ∧ c.toNat ≠ 8233

instance (c : Char) : Decidable (Plain c) := by unfold Plain; infer_instance

/-- Other characters are shown by their codes. -/
def code (c : Char) : Text :=
  if c = '\n' then "\\n".toList else if c = '\r' then "\\r".toList else if c = '\t' then "\\t".toList else unicode c.toNat

def shown (c : Char) : Text := if Plain c then [c] else code c

/-! ### Proofs -/

theorem hex_ne {n : Nat} (h : n < 16) : hex n ≠ '\\' ∧ hex n ≠ '"' ∧ hex n ≠ '\n' := by
  interval_cases n <;> decide

theorem special_lt {c : Char} (h : c.toNat < 32) : c ≠ '"' ∧ c ≠ '\\' := by
  refine ⟨?_, ?_⟩ <;> rintro rfl <;> revert h <;> decide

/-- The kinds of characters -/
theorem escape_cases (c : Char) : (c = '"' ∧ escape c = ['\\', '"'] ∧ shown c = ['"']) ∨ (c = '\\' ∧ escape c = ['\\', '\\'] ∧ shown c = ['\\']) ∨
    (c ≠ '"' ∧ c ≠ '\\' ∧ c ≠ '\n' ∧ escape c = [c] ∧ shown c = [c]) ∨
    (∃ x l, x ≠ '\\' ∧ x ≠ '"' ∧ (∀ y ∈ l, y ≠ '\\' ∧ y ≠ '"' ∧ y ≠ '\n') ∧ x ≠ '\n' ∧ escape c = '\\' :: x :: l ∧ shown c = '\\' :: x :: l) := by
  by_cases h1 : c = '"'
  · exact .inl ⟨h1, by rw [h1]; decide, by rw [h1]; decide⟩
  by_cases h2 : c = '\\'
  · exact .inr (.inl ⟨h2, by rw [h2]; decide, by rw [h2]; decide⟩)
  by_cases h3 : c = '\n'
  · exact .inr (.inr (.inr ⟨'n', [], by decide, by decide, by simp, by decide, by rw [h3]; decide, by rw [h3]; decide⟩))
  by_cases h4 : c = '\r'
  · exact .inr (.inr (.inr ⟨'r', [], by decide, by decide, by simp, by decide, by rw [h4]; decide, by rw [h4]; decide⟩))
  by_cases h5 : c = '\t'
  · exact .inr (.inr (.inr ⟨'t', [], by decide, by decide, by simp, by decide, by rw [h5]; decide, by rw [h5]; decide⟩))
  by_cases h6 : c.toNat < 32 ∨ c = '<' ∨ c = '>' ∨ c = '&' ∨ c.toNat = 8232 ∨ c.toNat = 8233
  · refine .inr (.inr (.inr ⟨'u', [hex (c.toNat / 4096 % 16), hex (c.toNat / 256 % 16), hex (c.toNat / 16 % 16), hex (c.toNat % 16)], by decide, by decide, ?_, by decide, ?_, ?_⟩))
    · intro y hy
      simp only [List.mem_cons, List.not_mem_nil, or_false] at hy
      rcases hy with rfl | rfl | rfl | rfl <;> exact hex_ne (Nat.mod_lt _ (by decide))
    · unfold escape
      rw [if_neg h1, if_neg h2, if_neg h3, if_neg h4, if_neg h5, if_pos h6]
      rfl
    · have hp : ¬ Plain c := by
        rintro ⟨p1, p2, p3, p4, p5, p6⟩
        rcases h6 with h | h | h | h | h | h
        · omega
        · exact p2 h
        · exact p3 h
        · exact p4 h
        · exact p5 h
        · exact p6 h
      unfold shown code
      rw [if_neg hp, if_neg h3, if_neg h4, if_neg h5]
      rfl
  · refine .inr (.inr (.inl ⟨h1, h2, h3, ?_, ?_⟩))
    · unfold escape
      rw [if_neg h1, if_neg h2, if_neg h3, if_neg h4, if_neg h5, if_neg h6]
    · have hp : Plain c := by
        simp only [not_or] at h6
        exact ⟨by omega, h6.2.1, h6.2.2.1, h6.2.2.2.1, h6.2.2.2.2.1, h6.2.2.2.2.2⟩
      unfold shown
      rw [if_pos hp]

/-- A character that does not begin the pair is kept. -/
theorem replace2_skip {a b c x : Char} (h : x ≠ a) (l : Text) : replace2 a b c (x :: l) = x :: replace2 a b c l := by
  cases l with
  | nil => rfl
  | cons y l =>
    conv_lhs => unfold replace2
    rw [if_neg fun e => h e.1]

theorem replace2_other {a b c y : Char} (h : y ≠ b) (l : Text) : replace2 a b c (a :: y :: l) = a :: replace2 a b c (y :: l) := by
  conv_lhs => unfold replace2
  rw [if_neg fun e => h e.2]

theorem replace2_hit (a b c : Char) (l : Text) : replace2 a b c (a :: b :: l) = c :: replace2 a b c l := by
  conv_lhs => unfold replace2
  rw [if_pos ⟨rfl, rfl⟩]

theorem replace2_skips {a b c : Char} : ∀ (l m : Text), (∀ y ∈ l, y ≠ a) → replace2 a b c (l ++ m) = l ++ replace2 a b c m := by
  intro l
  induction l with
  | nil => intro m _; rfl
  | cons x l ih =>
    intro m h
    rw [List.cons_append, replace2_skip (h x (by simp)), ih m fun y hy => h y (by simp [hy])]
    rfl

/-- What is left after the first replacement -/
def half (c : Char) : Text := if c = '"' then ['"'] else escape c

/-- Escaped text never begins with a quotation mark. -/
theorem first_step : ∀ s : Text, replace2 '\\' '"' '"' (s.flatMap escape) = s.flatMap half ∧ (s.flatMap escape).head? ≠ some '"' := by
  intro s
  induction s with
  | nil => exact ⟨rfl, by simp⟩
  | cons c s ih =>
    rw [List.flatMap_cons, List.flatMap_cons]
    rcases escape_cases c with ⟨h, e, -⟩ | ⟨h, e, -⟩ | ⟨h1, h2, -, e, -⟩ | ⟨x, l, h1, h2, h3, -, e, -⟩
    · rw [e]
      have : half c = ['"'] := by rw [h]; rfl
      rw [this]
      refine ⟨?_, by simp⟩
      show replace2 '\\' '"' '"' ('\\' :: '"' :: s.flatMap escape) = '"' :: s.flatMap half
      rw [replace2_hit, ih.1]
    · rw [e]
      have : half c = ['\\', '\\'] := by rw [h]; decide
      rw [this]
      refine ⟨?_, by simp⟩
      show replace2 '\\' '"' '"' ('\\' :: '\\' :: s.flatMap escape) = '\\' :: '\\' :: s.flatMap half
      rw [replace2_other (by decide)]
      congr 1
      cases ht : s.flatMap escape with
      | nil =>
        have := ih.1
        rw [ht] at this
        have hn : s.flatMap half = [] := this.symm
        rw [hn]
        rfl
      | cons y t =>
        have hy : y ≠ '"' := by
          rintro rfl
          exact ih.2 (by rw [ht]; rfl)
        rw [replace2_other hy, ← ht, ih.1]
    · have : half c = [c] := by unfold half; rw [if_neg h1, e]
      rw [this, e]
      refine ⟨?_, by simpa using h1⟩
      show replace2 '\\' '"' '"' (c :: s.flatMap escape) = c :: s.flatMap half
      rw [replace2_skip h2, ih.1]
    · have hc : c ≠ '"' := by
        rintro rfl
        have : escape '"' = ['\\', '"'] := by decide
        rw [this] at e
        injection e with _ e
        injection e with e _
        exact h2 e.symm
      have : half c = '\\' :: x :: l := by unfold half; rw [if_neg hc, e]
      rw [this, e]
      refine ⟨?_, by simp⟩
      show replace2 '\\' '"' '"' ('\\' :: x :: (l ++ s.flatMap escape)) = '\\' :: x :: (l ++ s.flatMap half)
      rw [replace2_other h2, replace2_skip h1, replace2_skips _ _ fun y hy => (h3 y hy).1, ih.1]

theorem second_step : ∀ s : Text, replace2 '\\' '\\' '\\' (s.flatMap half) = s.flatMap shown := by
  intro s
  induction s with
  | nil => rfl
  | cons c s ih =>
    rw [List.flatMap_cons, List.flatMap_cons]
    rcases escape_cases c with ⟨h, -, e⟩ | ⟨h, -, e⟩ | ⟨h1, h2, -, e, e'⟩ | ⟨x, l, h1, h2, h3, -, e, e'⟩
    · have : half c = ['"'] := by rw [h]; rfl
      rw [this, e]
      show replace2 '\\' '\\' '\\' ('"' :: s.flatMap half) = '"' :: s.flatMap shown
      rw [replace2_skip (by decide), ih]
    · have : half c = ['\\', '\\'] := by rw [h]; decide
      rw [this, e]
      show replace2 '\\' '\\' '\\' ('\\' :: '\\' :: s.flatMap half) = '\\' :: s.flatMap shown
      rw [replace2_hit, ih]
    · have : half c = [c] := by unfold half; rw [if_neg h1, e]
      rw [this, e']
      show replace2 '\\' '\\' '\\' (c :: s.flatMap half) = c :: s.flatMap shown
      rw [replace2_skip h2, ih]
    · have hc : c ≠ '"' := by
        rintro rfl
        have : escape '"' = ['\\', '"'] := by decide
        rw [this] at e
        injection e with _ e
        injection e with e _
        exact h2 e.symm
      have : half c = '\\' :: x :: l := by unfold half; rw [if_neg hc, e]
      rw [this, e']
      show replace2 '\\' '\\' '\\' ('\\' :: x :: (l ++ s.flatMap half)) = '\\' :: x :: (l ++ s.flatMap shown)
      rw [replace2_other h1, replace2_skip h1, replace2_skips _ _ fun y hy => (h3 y hy).1, ih]

theorem escape_no_newline (s : Text) : '\n' ∉ s.flatMap escape := by
  intro h
  obtain ⟨c, -, h⟩ := List.mem_flatMap.1 h
  rcases escape_cases c with ⟨-, e, -⟩ | ⟨-, e, -⟩ | ⟨-, -, h3, e, -⟩ | ⟨x, l, -, -, h3, h4, e, -⟩
  · rw [e] at h; revert h; decide
  · rw [e] at h; revert h; decide
  · rw [e] at h
    simp only [List.mem_singleton] at h
    exact h3 h.symm
  · rw [e] at h
    simp only [List.mem_cons] at h
    rcases h with h | h | h
    · revert h; decide
    · exact h4 h.symm
    · exact (h3 _ h).2.2 rfl

theorem quoted_quote (s : Text) : quoted (quote s) = true ∧ ((quote s).drop 1).dropLast = s.flatMap escape := by
  have e : ((quote s).drop 1).dropLast = s.flatMap escape := by
    unfold quote
    rw [List.cons_append, List.drop_one, List.tail_cons, List.dropLast_concat]
  refine ⟨?_, e⟩
  unfold quoted
  rw [e]
  have h1 : (s.flatMap escape).contains '\n' = false := by
    rw [← Bool.not_eq_true, List.contains_iff_mem]
    exact escape_no_newline s
  have h2 : (quote s).getLast? = some '"' := by unfold quote; rw [List.getLast?_concat]
  have h3 : (quote s).head? = some '"' := by unfold quote; simp
  have h4 : 2 ≤ (quote s).length := by unfold quote; simp
  rw [h1, h2, h3]
  simp [h4]

/-! ### The property -/

/-- C91: every text is shown character by character, special ones by their codes. -/
theorem C91_shown (s : Text) : patch (quote s) = s.flatMap shown := by
  obtain ⟨h1, h2⟩ := quoted_quote s
  unfold patch
  rw [if_pos h1, h2, (first_step s).1, second_step]

/-- C91: texts without control characters, `<`, `>`, `&` and the two Unicode line separators are shown as they are. -/
theorem C91_texts_partial (s : Text) (h : ∀ c ∈ s, Plain c) : patch (quote s) = s := by
  rw [C91_shown]
  induction s with
  | nil => rfl
  | cons c s ih =>
    rw [List.flatMap_cons, ih fun x hx => h x (by simp [hx])]
    unfold shown
    rw [if_pos (h c (by simp))]
    rfl

/-- C91: values that are not JSON strings are shown as written, `null` is left out, and whatever the order in which the fields are taken, the attributes
are the same up to order. -/
theorem C91_fields (fields : List (Text × Text)) :
    (∀ n v, (n, v) ∈ fields → v ≠ "null".toList → (n, patch v) ∈ attributes fields) ∧
    (∀ a ∈ attributes fields, ∃ v, (a.1, v) ∈ fields ∧ v ≠ "null".toList ∧ a.2 = patch v) ∧
    (∀ v, v.head? ≠ some '"' → patch v = v) ∧
    (∀ fields', fields'.Perm fields → (attributes fields').Perm (attributes fields)) := by
  refine ⟨fun n v h hn => ?_, fun a h => ?_, fun v hv => ?_, fun l h => (h.filter _).map _⟩
  · exact List.mem_map.2 ⟨(n, v), List.mem_filter.2 ⟨h, by simpa using hn⟩, rfl⟩
  · obtain ⟨f, h1, rfl⟩ := List.mem_map.1 h
    obtain ⟨h2, h3⟩ := List.mem_filter.1 h1
    exact ⟨f.2, h2, by simpa using h3, rfl⟩
  · unfold patch
    rw [if_neg]
    unfold quoted
    intro hq
    simp only [Bool.and_eq_true, beq_iff_eq] at hq
    exact hv hq.1.1.2

/-- A text with quotation marks and backslashes -/
example : (∀ c ∈ "say \"\\\\\" and \\n".toList, Plain c) ∧ patch (quote "say \"\\\\\" and \\n".toList) = "say \"\\\\\" and \\n".toList := by
  have h : ∀ c ∈ "say \"\\\\\" and \\n".toList, Plain c := by decide
  exact ⟨h, C91_texts_partial _ h⟩

/-- C91 fails for special characters: a comparison sign is shown by its code, and a new line is shown like a backslash followed by the letter n. -/
theorem C91_special_violation : patch (quote "a<b".toList) = "a\\u003cb".toList ∧
    ∃ s t : Text, s ≠ t ∧ patch (quote s) = patch (quote t) := by
  exact ⟨by decide +kernel, ['\n'], ['\\', 'n'], by decide, by decide +kernel⟩

end Verif.Event
