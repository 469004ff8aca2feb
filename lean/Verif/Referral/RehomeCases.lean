import Verif.Referral.Rehome2

/-! Property C89: cases that meet the premises, and what goes wrong when an account is moved after somebody has moved to it. -/
namespace Verif.Referral

/-- A store with these records -/
def storeOf (l : List (Key × Info)) : KV Nat Info := l.foldl (fun m e => m.set e.1 e.2) KV.empty

theorem all_entries {st : KV Nat Info} {P : Key → Info → Prop} (h : ∀ e ∈ st.entries, P e.1 e.2) {k : Key} {v : Info} (hv : st.get k = some v) : P k v :=
  h _ (KV.mem_entries.2 hv)

def upwardB (st : KV Nat Info) (rank : Key → Nat) : Bool :=
  st.entries.all fun e => match e.2.referrer with
    | none => !e.2.banished
    | some p => st.has p && decide (rank p < rank e.1)

theorem upward_of_check {st : KV Nat Info} {rank : Key → Nat} (h : upwardB st rank = true) :
    Upward st rank ∧ ∀ k v, st.get k = some v → v.banished = true → v.referrer ≠ none := by
  have h := List.all_eq_true.1 h
  refine ⟨⟨fun k v p hv hp => ?_, fun k v p hv hp => ?_⟩, fun k v hv hb hn => ?_⟩
  · have := h _ (KV.mem_entries.2 hv)
    simp only [hp, Bool.and_eq_true] at this
    have h1 := this.1
    unfold KV.has at h1
    exact Option.isSome_iff_exists.1 h1
  · have := h _ (KV.mem_entries.2 hv)
    simp only [hp, Bool.and_eq_true, decide_eq_true_eq] at this
    exact this.2
  · have := h _ (KV.mem_entries.2 hv)
    simp only [hn, hb] at this
    cases this

def inListsB (st : KV Nat Info) : Bool :=
  st.entries.all fun e => decide e.2.referrals.Nodup && st.entries.all fun f => f.2.banished || (decide (f.1 ∈ e.2.referrals) == decide (f.2.referrer = some e.1))

theorem inLists_of_check {st : KV Nat Info} (h : inListsB st = true) : InLists st := by
  have h := List.all_eq_true.1 h
  refine ⟨fun p u hu => ?_, fun p u c v hu hv hb => ?_⟩
  · have := h _ (KV.mem_entries.2 hu)
    rw [Bool.and_eq_true] at this
    exact of_decide_eq_true this.1
  · have := h _ (KV.mem_entries.2 hu)
    rw [Bool.and_eq_true] at this
    have := List.all_eq_true.1 this.2 _ (KV.mem_entries.2 hv)
    simp only [hb, Bool.false_or, beq_iff_eq] at this
    exact decide_eq_decide.1 this

/-- Money at levels 0, 1, 2, … -/
def coinsAt (l : List Int) : What → Nat → Int
  | .coins, j => l.getD j 0
  | _, _ => 0

/-- 1 above 2 (banished) above 3 (banished) above 4 and 5, who has nothing; 6 is below 4. -/
def forlornRecords : List (Key × Info) :=
  [(1, { status := 1, active := true, tot := coinsAt [0, 0, 0, 7, 5] }),
   (2, { status := 1, banished := true, referrer := some 1, tot := coinsAt [0, 0, 7, 5] }),
   (3, { status := 1, banished := true, referrer := some 2, referrals := [5, 4], tot := coinsAt [0, 7, 5] }),
   (4, { status := 1, active := true, referrer := some 3, referrals := [6], tot := coinsAt [7, 5] }),
   (5, { status := 1, active := true, referrer := some 3 }),
   (6, { status := 1, active := true, referrer := some 4, tot := coinsAt [5] })]

def forlorn : State := { empty0 with store := storeOf forlornRecords }

theorem no_orphan_of {st : KV Nat Info} {u : Info} (h : u.referrer = none) (y : Key) : ¬ Orphan st u y := by
  rintro ⟨-, h2, -⟩
  rw [h] at h2
  cases h2

/-- A check of the order: accounts found by `goUp` are enough. -/
def inOrderB (st : KV Nat Info) (now month : Int) : Bool :=
  st.entries.all fun e => e.2.banished || match e.2.referrer with
    | none => true
    | some p => match st.get p with
      | none => true
      | some u => !u.banished || match goUp st now month (st.keys.length + 1) u.referrer with
        | some (some q) => !decide (e.1 < q) || match st.get q with
          | none => true
          | some w => w.banished || match w.referrer with
            | none => true
            | some y => match st.get y with
              | none => true
              | some z => !z.banished
        | _ => false

theorem inOrder_of_check {st : KV Nat Info} {now month : Int} (hb : ∀ k v, st.get k = some v → v.banished = true → v.referrer ≠ none)
    (h : inOrderB st now month = true) : InOrder st now month := by
  rintro k r p q w hk ⟨o1, o2, u, o3, o4⟩ hf hw hlt y ⟨y1, y2, z, y3, y4⟩
  have h := List.all_eq_true.1 h _ (KV.mem_entries.2 hk)
  simp only [o1, o2, o3, o4, Bool.false_or, Bool.not_true] at h
  obtain ⟨x, hx⟩ : ∃ x, u.referrer = some x := Option.ne_none_iff_exists'.1 (hb p u o3 o4)
  rw [hx] at h
  cases hg : goUp st now month (st.keys.length + 1) (some x) with
  | none => rw [hg] at h; cases h
  | some new =>
    obtain ⟨q', u', rfl, e2, e3⟩ := goUp_first hb (settling_start st now month) _ x new hg
    have hf' : FirstOpen st now month p q' := by
      rcases e3 with ⟨e3, rfl⟩ | ⟨e3, e4⟩
      · exact .here o3 hx e2 e3
      · exact .up o3 hx e2 e3 e4
    have := hf.unique hf'
    subst this
    rw [hg] at h
    simp [hlt, hw, y1, y2, y3, y4] at h

/-- The premises of C89 hold; accounts 4 and 5 move to account 1, and so does the money. -/
example : ∃ rank, Upward forlorn.store rank ∧ (∀ k v, forlorn.store.get k = some v → v.banished = true → v.referrer ≠ none) ∧
    InLists forlorn.store ∧ InOrder forlorn.store forlorn.now forlorn.month ∧
    (rehome forlorn).store.entries.map (fun e => (e.1, e.2.referrer, e.2.referrals, (List.range 5).map (e.2.tot .coins))) =
      [(1, none, [4, 5], [0, 7, 5, 0, 0]), (2, some 1, [], [0, 0, 0, 0, 0]), (3, some 2, [], [0, 0, 0, 0, 0]), (4, some 1, [6], [7, 5, 0, 0, 0]),
       (5, some 1, [], [0, 0, 0, 0, 0]), (6, some 4, [], [5, 0, 0, 0, 0])] := by
  have h := upward_of_check (st := forlorn.store) (rank := id) (by decide +kernel)
  exact ⟨id, h.1, h.2, inLists_of_check (by decide +kernel), inOrder_of_check h.2 (by decide +kernel), by decide +kernel⟩

/-- 1 above 2 (banished) above 9 above 3 (banished) above 4: account 4 moves to account 9, which moves to account 1 later. -/
def overtakenRecords : List (Key × Info) :=
  [(1, { status := 1, active := true, tot := coinsAt [0, 0, 7, 0, 5] }),
   (2, { status := 1, banished := true, referrer := some 1, referrals := [9], tot := coinsAt [0, 7, 0, 5] }),
   (3, { status := 1, banished := true, referrer := some 9, referrals := [4], tot := coinsAt [0, 5] }),
   (4, { status := 1, active := true, referrer := some 3, tot := coinsAt [5] }),
   (9, { status := 1, active := true, referrer := some 2, tot := coinsAt [7, 0, 5] })]

def overtaken : State := { empty0 with store := storeOf overtakenRecords }

/-- C89 fails for lists and money when an account is moved after somebody has moved to it: the record of the start is written over the new one
(upgrade.go:574 and 654).  Here account 4 has referrer 9 afterwards, but account 9 neither lists account 4 nor counts its money at level 1, and the
money at level 4 of account 1 is negative. -/
theorem C89_stale_violation : ∃ (s : State) (rank : Key → Nat), Upward s.store rank ∧
    (∀ k v, s.store.get k = some v → v.banished = true → v.referrer ≠ none) ∧ InLists s.store ∧ (∀ k w l, 0 ≤ (infoOf s.store k).tot w l) ∧
    ¬ InLists (rehome s).store ∧ (infoOf (rehome s).store 4).referrer = some 9 ∧ (infoOf (rehome s).store 9).referrals = [] ∧
    (infoOf (rehome s).store 4).tot .coins 0 = 5 ∧ (infoOf (rehome s).store 9).tot .coins 1 = 0 ∧ (infoOf (rehome s).store 1).tot .coins 4 = -5 := by
  have h := upward_of_check (st := overtaken.store) (rank := fun k => if k = 9 then 3 else if k ≤ 2 then k else k + 1) (by decide +kernel)
  have e4 : ((rehome overtaken).store.get 4).map (fun v => (v.banished, v.referrer)) = some (false, some 9) := by decide +kernel
  have e9 : ((rehome overtaken).store.get 9).map (fun v => v.referrals) = some [] := by decide +kernel
  refine ⟨overtaken, _, h.1, h.2, inLists_of_check (by decide +kernel), ?_, fun hl => ?_, by decide +kernel, by decide +kernel, by decide +kernel, by decide +kernel,
    by decide +kernel⟩
  · intro k w l
    unfold infoOf
    cases hv : overtaken.store.get k with
    | none => exact le_refl _
    | some v =>
      show 0 ≤ v.tot w l
      have hall : ∀ e ∈ overtaken.store.entries, ∃ t : List Int, e.2.tot = coinsAt t ∧ ∀ x ∈ t, 0 ≤ x := by
        intro e he
        have : e ∈ overtakenRecords := he
        unfold overtakenRecords at this
        simp only [List.mem_cons, List.not_mem_nil, or_false] at this
        rcases this with rfl | rfl | rfl | rfl | rfl
        all_goals exact ⟨_, rfl, by decide⟩
      obtain ⟨t, h1, h2⟩ := all_entries (P := fun _ v => ∃ t : List Int, v.tot = coinsAt t ∧ ∀ x ∈ t, 0 ≤ x) hall hv
      rw [h1]
      cases w with
      | coins =>
        show 0 ≤ t.getD l 0
        rw [List.getD_eq_getElem?_getD]
        cases hx : t[l]? with
        | none => exact le_refl _
        | some x => exact h2 x (List.mem_of_getElem? hx)
      | delegated => exact le_refl _
      | active => exact le_refl _
  · obtain ⟨v4, g4, g4'⟩ := Option.map_eq_some_iff.1 e4
    obtain ⟨v9, g9, g9'⟩ := Option.map_eq_some_iff.1 e9
    injection g4' with a b
    have := (hl.exact 9 v9 4 v4 g9 g4 a).2 b
    rw [g9'] at this
    cases this

end Verif.Referral
