import Verif.Referral.Columns
import Verif.Referral.Readmit
import Verif.Referral.Totals2

/-! Property C89, continued: the sums of money below. -/
namespace Verif.Referral

/-! ### Specification -/

/-- On every level, coins and delegated coins are the sums over the present accounts so many levels below.  Numbers of active accounts are not included. -/
def MoneyMatches (st : KV Nat Info) : Prop :=
  ∀ a w L, st.has a = true → w ≠ .active → 1 ≤ L → L ≤ 10 → (infoOf st a).tot w L = ((below st a L).map fun c => (infoOf st c).tot w 0).sum

/-- Accounts to be moved have smaller keys than accounts to be moved below them. -/
def TopDown (st : KV Nat Info) : Prop :=
  ∀ k c p y n, Orphan st (infoOf st k) p → Orphan st (infoOf st c) y → ancestor st c n = some k → k < c

/-! ### Amounts as functions -/

def refOf (st : KV Nat Info) (c : Key) : Option Key := (infoOf st c).referrer

/-- What counts: nothing on level zero for the banished -/
def worth (st : KV Nat Info) (w : What) (l : Nat) (c : Key) : Int := if l = 0 ∧ (infoOf st c).banished = true then 0 else (infoOf st c).tot w l

theorem ancestor_up (st : KV Nat Info) (c : Key) : ∀ n, ancestor st c n = up (refOf st) (n + 1) c := by
  intro n
  induction n with
  | zero => rfl
  | succ n ih => rw [ancestor, ih]; rfl

theorem sum_filter_ite (p : Key → Bool) (f : Key → Int) : ∀ l : List Key, ((l.filter p).map f).sum = (l.map fun c => if p c = true then f c else 0).sum := by
  intro l
  induction l with
  | nil => rfl
  | cons a l ih =>
    rw [List.filter_cons, List.map_cons, List.sum_cons, ← ih]
    by_cases h : p a = true
    · rw [if_pos h, if_pos h, List.map_cons, List.sum_cons]
    · rw [if_neg h, if_neg h, _root_.zero_add]

theorem within_keys {st : KV Nat Info} {rank : Key → Nat} (hu : Upward st rank) : Within st.keys.toFinset (refOf st) := by
  intro c hc p hp
  rw [List.mem_toFinset] at hc ⊢
  obtain ⟨v, hv⟩ := KV.mem_keys.1 hc
  unfold refOf at hp
  rw [infoOf_get hv] at hp
  obtain ⟨u, hu⟩ := hu.known c v p hv hp
  exact KV.mem_keys.2 ⟨u, hu⟩

theorem below_sum (st : KV Nat Info) (a : Key) (w : What) {L : Nat} (hL : 1 ≤ L) :
    ((below st a L).map fun c => (infoOf st c).tot w 0).sum = ∑ c ∈ st.keys.toFinset, if up (refOf st) L c = some a then worth st w 0 c else 0 := by
  unfold below
  rw [sum_filter_ite, List.sum_toFinset _ st.keys_nodup]
  congr 1
  apply List.map_congr_left
  intro c _
  rw [ancestor_up, Nat.sub_add_cancel hL]
  unfold worth
  by_cases h1 : up (refOf st) L c = some a <;> by_cases h2 : (infoOf st c).banished = true <;> simp [h1, h2]

theorem moneyMatches_iff {st : KV Nat Info} {rank : Key → Nat} (hu : Upward st rank) :
    MoneyMatches st ↔ ∀ w, w ≠ .active → Balanced st.keys.toFinset (refOf st) (worth st w) := by
  have hw := within_keys hu
  constructor
  · intro h w hact
    rw [balanced_iff hw]
    intro a ha l hl
    rw [List.mem_toFinset] at ha
    by_cases h0 : l = 0
    · subst h0
      rw [Finset.sum_eq_single_of_mem a (List.mem_toFinset.2 ha)]
      · simp [up]
      · intro c _ hc; simp [up, hc]
    · have hp : 1 ≤ l := by omega
      rw [← below_sum st a w hp, ← h a w l (mem_keys_of_has.1 ha) hact hp hl]
      unfold worth
      rw [if_neg fun e => h0 e.1]
  · intro h a w L ha hact h1 hL
    have := (balanced_iff hw).1 (h w hact) a (List.mem_toFinset.2 (mem_keys_of_has.2 ha)) L hL
    rw [below_sum st a w h1, ← this]
    unfold worth
    rw [if_neg fun e => by omega]

/-! ### What a line of ancestors does -/

theorem Linked.ref {m m' : KV Nat Info} (h : Linked m m') : refOf m' = refOf m := by
  funext k
  unfold refOf infoOf
  have := h k
  cases h1 : m.get k with
  | none =>
    cases h2 : m'.get k with
    | none => rfl
    | some => rw [h1, h2] at this; cases this
  | some =>
    cases h2 : m'.get k with
    | none => rw [h1, h2] at this; cases this
    | some =>
      rw [h1, h2] at this
      injection this with this
      injection this with _ this

theorem alongLine_money {f : Nat → Info → Info} {sign : Int} {r : Info} (hf : ∀ l v, 1 ≤ l → private' (f l v) = private' v ∧ (f l v).referrer = v.referrer)
    (ht : ∀ l v, (f l v).tot = (v.addMoney sign r l).tot) : ∀ (n l : Nat) (a : Option Key) (m m' : KV Nat Info), 1 ≤ l → alongLine f n l a m = some m' →
      ∀ k w j, w ≠ .active → j ≤ 10 →
        worth m' w j k = worth m w j k + sign * ∑ i ∈ Finset.range n, if a.bind (up (refOf m) i) = some k ∧ l + i ≤ j then r.tot w (j - (l + i)) else 0 := by
  intro n
  induction n with
  | zero => intro l a m m' _ h k w j _ _; unfold alongLine at h; cases h; simp
  | succ n ih =>
    intro l a m m' hl h k w j hact hj
    cases a with
    | none => unfold alongLine at h; cases h; simp
    | some a =>
      unfold alongLine at h
      cases hv : m.get a with
      | none => rw [hv] at h; cases h
      | some v =>
        rw [hv] at h
        have hlk := linked_set hv (hf l v hl).1 (hf l v hl).2
        have href : refOf m a = v.referrer := by unfold refOf; rw [infoOf_get hv]
        rw [ih _ _ _ _ (by omega) h k w j hact hj, hlk.ref, Finset.sum_range_succ', ← href]
        have e0 : worth (m.set a (f l v)) w j k = worth m w j k + sign * if a = k ∧ l ≤ j then r.tot w (j - l) else 0 := by
          unfold worth
          rw [infoOf_set]
          by_cases hk : k = a
          · subst hk
            rw [if_pos rfl, infoOf_get hv, ht l v]
            have hb : (f l v).banished = v.banished := (congrArg Info.banished (hf l v hl).1 :)
            rw [hb]
            unfold Info.addMoney
            by_cases h0 : j = 0 ∧ v.banished = true
            · rw [if_pos h0, if_pos h0, if_neg (by omega)]
              simp
            · rw [if_neg h0, if_neg h0]
              by_cases h1 : l ≤ j
              · simp [h1, hact, hj]
              · simp [h1]
          · rw [if_neg hk, if_neg (c := a = k ∧ l ≤ j) fun e => hk e.1.symm]
            simp
        rw [e0]
        have e1 : ∀ i, (some a).bind (up (refOf m) (i + 1)) = (refOf m a).bind (up (refOf m) i) := fun i => up_succ _ _ _
        have e2 : (some a).bind (up (refOf m) 0) = some a := rfl
        have e3 : (∑ i ∈ Finset.range n, if (some a).bind (up (refOf m) (i + 1)) = some k ∧ l + (i + 1) ≤ j then r.tot w (j - (l + (i + 1))) else 0) =
            ∑ i ∈ Finset.range n, if (refOf m a).bind (up (refOf m) i) = some k ∧ l + 1 + i ≤ j then r.tot w (j - (l + 1 + i)) else 0 := by
          apply Finset.sum_congr rfl
          intro i _
          rw [e1, show l + (i + 1) = l + 1 + i by omega]
        rw [e3, e2, _root_.mul_add]
        simp only [Option.some.injEq, Nat.add_zero]
        omega

theorem line_column (m : KV Nat Info) (w : What) (r : Info) (b k : Key) (j : Nat) :
    (∑ i ∈ Finset.range 10, if (some b).bind (up (refOf m) i) = some k ∧ 1 + i ≤ j then r.tot w (j - (1 + i)) else 0) =
      column (refOf m) (fun l => r.tot w l) b j k := by
  unfold column
  apply Finset.sum_congr rfl
  intro i _
  rw [Option.bind_some, Nat.add_comm 1 i]

theorem column_zero {ref : Key → Option Key} {x : Nat → Int} (hx : ∀ l ≤ 10, x l = 0) (b k : Key) {j : Nat} (hj : j ≤ 10) : column ref x b j k = 0 := by
  unfold column
  apply Finset.sum_eq_zero
  intro i _
  rw [hx (j - (i + 1)) (by omega), ite_self]

theorem hollow_zero {r : Info} (h : hollow r = true) {w : What} (hw : w ≠ .active) : ∀ l ≤ 10, r.tot w l = 0 := by
  intro l hl
  unfold hollow at h
  have := List.all_eq_true.1 h l (by simp; omega)
  rw [Bool.and_eq_true, decide_eq_true_eq, decide_eq_true_eq] at this
  cases w with
  | active => exact absurd rfl hw
  | coins => exact this.1
  | delegated => exact this.2

theorem amend_money {f : Info → Info} (hf : ∀ v, (f v).tot = v.tot ∧ (f v).banished = v.banished) {a : Key} {m m' : KV Nat Info} (h : amend f a m = some m')
    (w : What) (j : Nat) (k : Key) : worth m' w j k = worth m w j k := by
  unfold amend at h
  obtain ⟨v, hv, rfl⟩ := Option.map_eq_some_iff.1 h
  unfold worth
  rw [infoOf_set]
  split
  · next e => rw [e, infoOf_get hv, (hf v).1, (hf v).2]
  · rfl

theorem relink_money {acc old q : Key} {r : Info} {m m' : KV Nat Info} (h : relink acc r old (some q) m = some m') {w : What} (hw : w ≠ .active) {j : Nat} (hj : j ≤ 10)
    (k : Key) : worth m' w j k = worth m w j k - column (refOf m) (fun l => r.tot w l) old j k + column (refOf m) (fun l => r.tot w l) q j k := by
  unfold relink at h
  split at h
  · next hh =>
    obtain ⟨m1, h1, h2⟩ := Option.bind_eq_some_iff.1 h
    have e1 := amend_money (f := fun v => { v with referrals := removeOrdered v.referrals acc }) (fun _ => ⟨rfl, rfl⟩) h1 w j k
    have e2 := amend_money (f := fun v => { v with referrals := v.referrals ++ [acc] }) (fun _ => ⟨rfl, rfl⟩) h2 w j k
    rw [e2, e1, column_zero (hollow_zero hh hw) _ _ hj, column_zero (hollow_zero hh hw) _ _ hj]
    omega
  · obtain ⟨m1, h1, h2⟩ := Option.bind_eq_some_iff.1 h
    have hl := alongLine_linked (fun l v hl => part_private acc r hl v) _ _ _ _ _ (le_refl 1) h1
    have e1 := alongLine_money (sign := -1) (r := r) (fun l v hl => part_private acc r hl v) (fun l v => by unfold part; split <;> rfl) _ _ _ _ _ (le_refl 1) h1 k w j hw hj
    have e2 := alongLine_money (sign := 1) (r := r) (fun l v hl => meet_private acc r hl v) (fun l v => by unfold meet; split <;> rfl) _ _ _ _ _ (le_refl 1) h2 k w j hw hj
    rw [e2, e1, hl.ref, line_column, line_column]
    omega

/-! ### Lines of ancestors during the upgrade -/

theorem refOf_get {st : KV Nat Info} {c p : Key} (h : refOf st c = some p) : ∃ v, st.get c = some v ∧ v.referrer = some p := by
  unfold refOf infoOf at h
  cases hg : st.get c with
  | none => rw [hg] at h; cases h
  | some v => rw [hg] at h; exact ⟨v, rfl, h⟩

theorem refOf_of {st : KV Nat Info} {c : Key} {v : Info} (h : st.get c = some v) : refOf st c = v.referrer := by
  unfold refOf; rw [infoOf_get h]

theorem firstOpen_line {o : KV Nat Info} {now month : Int} {k q : Key} (h : FirstOpen o now month k q) : ∃ n, up (refOf o) (n + 1) k = some q := by
  induction h with
  | @here k p v u h1 h2 _ _ =>
    refine ⟨0, ?_⟩
    show (some k).bind (refOf o) = _
    rw [Option.bind_some, refOf_of h1, h2]
  | @up k p q v u h1 h2 _ _ _ ih =>
    obtain ⟨n, hn⟩ := ih
    exact ⟨n + 1, by rw [up_succ, refOf_of h1, h2]; exact hn⟩

/-- Who is above somebody during the upgrade was above them before. -/
theorem settling_line {o m : KV Nat Info} {now month : Int} {D : Key → Prop} (hm : Settling o now month D m) : ∀ (n : Nat) (c k : Key),
    up (refOf m) n c = some k → ∃ i, n ≤ i ∧ up (refOf o) i c = some k := by
  have one : ∀ c p, refOf m c = some p → ∃ i, up (refOf o) (i + 1) c = some p := by
    intro c p h
    obtain ⟨v', h1, h2⟩ := refOf_get h
    cases ho : o.get c with
    | none => rw [hm.none c ho] at h1; cases h1
    | some v =>
      obtain ⟨w, g1, -, g3, g4⟩ := hm.some c v ho
      rw [h1] at g1
      cases g1
      by_cases hD : D c ∧ ∃ p, Orphan o v p
      · obtain ⟨hd, y, hy⟩ := hD
        obtain ⟨q, q1, q2⟩ := g3 y hd hy
        rw [h2] at q2
        cases q2
        obtain ⟨n, hn⟩ := firstOpen_line q1
        exact ⟨n + 1, by rw [up_succ, refOf_of ho, hy.2.1]; exact hn⟩
      · rw [g4 hD] at h2
        refine ⟨0, ?_⟩
        show (some c).bind (refOf o) = _
        rw [Option.bind_some, refOf_of ho, h2]
  intro n
  induction n with
  | zero => intro c k h; exact ⟨0, le_refl 0, h⟩
  | succ n ih =>
    intro c k h
    obtain ⟨d, h1, h2⟩ := Option.bind_eq_some_iff.1 h
    obtain ⟨i, hi, h3⟩ := ih c d h1
    obtain ⟨j, h4⟩ := one d k h2
    exact ⟨i + (j + 1), by omega, by rw [up_add, h3]; exact h4⟩

theorem up_lower {m : KV Nat Info} {rank : Key → Nat} (hu : Upward m rank) : ∀ (n : Nat) (c k : Key), up (refOf m) n c = some k → rank k + n ≤ rank c := by
  intro n
  induction n with
  | zero => intro c k h; unfold up at h; cases h; omega
  | succ n ih =>
    intro c k h
    obtain ⟨d, h1, h2⟩ := Option.bind_eq_some_iff.1 h
    obtain ⟨v, h3, h4⟩ := refOf_get h2
    have := hu.lower d v k h3 h4
    have := ih c d h1
    omega

theorem column_off {ref : Key → Option Key} {x : Nat → Int} {b k : Key} (h : ∀ i, up ref i b ≠ some k) (j : Nat) : column ref x b j k = 0 := by
  unfold column
  apply Finset.sum_eq_zero
  intro i _
  rw [if_neg fun e => h i e.1]

/-! ### The invariant -/

/-- The sums agree, and the records of those still to be moved have the amounts of the start. -/
structure Summed (o : KV Nat Info) (D : Key → Prop) (m : KV Nat Info) : Prop where
  sums : ∀ w, w ≠ .active → Balanced o.keys.toFinset (refOf m) (worth m w)
  fresh : ∀ k v p, o.get k = some v → Orphan o v p → ¬ D k → ∀ w, w ≠ .active → ∀ l ≤ 10, worth m w l k = v.tot w l

theorem rehomeOne_summed {o m m' : KV Nat Info} {now month : Int} {D : Key → Prop} {acc : Key} {r : Info} {rank : Key → Nat} (hu : Upward o rank)
    (hb : ∀ k v, o.get k = some v → v.banished = true → v.referrer ≠ none) (htd : TopDown o)
    (hDl : ∀ k v, o.get k = some v → (D k ↔ k < acc)) (hr : o.get acc = some r) (hm : Settling o now month D m) (ht : Summed o D m)
    (h : rehomeOne now month acc r m = some m') : Summed o (fun k => D k ∨ k = acc) m' := by
  have still : m' = m → Summed o (fun k => D k ∨ k = acc) m' := by
    rintro rfl
    exact ⟨ht.sums, fun k v p h1 h2 h3 => ht.fresh k v p h1 h2 fun hd => h3 (.inl hd)⟩
  have hD : ¬ D acc := fun hd => lt_irrefl _ ((hDl acc r hr).1 hd)
  have hm' := rehomeOne_settling hb hr hD hm h
  have hum := settling_upward hu hm
  unfold rehomeOne at h
  split at h
  · cases h; exact still rfl
  · next hban =>
    have hban : r.banished = false := by simpa using hban
    split at h
    · cases h; exact still rfl
    · next old href =>
      split at h
      · cases h
      · next v hv =>
        cases hw : o.get old with
        | none => rw [hm.none old hw] at hv; cases hv
        | some w =>
          obtain ⟨w', g1, g2, g3, g4⟩ := hm.some old w hw
          rw [hv] at g1
          cases g1
          have hbw : v.banished = w.banished := (congrArg Info.banished g2 :)
          split at h
          · cases h; exact still rfl
          · next hvb =>
            have hwb : w.banished = true := by rw [← hbw]; simpa using hvb
            have horphan : Orphan o r old := ⟨hban, href, w, hw, hwb⟩
            obtain ⟨new, -, h2⟩ := Option.bind_eq_some_iff.1 h
            obtain ⟨m1, h3, rfl⟩ := Option.map_eq_some_iff.1 h2
            obtain ⟨r', i1, -, i3, -⟩ := hm'.some acc r hr
            obtain ⟨q, hfirst, hq⟩ := i3 old (.inr rfl) horphan
            rw [KV.get_set, if_pos rfl] at i1
            cases i1
            have hq : new = some q := hq
            subst hq
            have hrq : rank q < rank old := hfirst.lower hu
            have hro : rank old < rank acc := hu.lower acc r old hr href
            obtain ⟨z, hz1, hz2⟩ := hfirst.open'
            have hlk := relink_linked h3
            obtain ⟨r0, f1, f2, -, f4⟩ := hm.some acc r hr
            have f5 := f4 fun ⟨hd, _⟩ => hD hd
            have hS : ∀ {k : Key} {x : Info}, o.get k = some x → k ∈ o.keys.toFinset := fun hk => List.mem_toFinset.2 (KV.mem_keys.2 ⟨_, hk⟩)
            have hwithin : Within o.keys.toFinset (refOf m) := by
              intro c _ p hp
              obtain ⟨x, x1, x2⟩ := refOf_get hp
              obtain ⟨u, hu'⟩ := hum.known c x p x1 x2
              cases ho : o.get p with
              | none => rw [hm.none p ho] at hu'; cases hu'
              | some y => exact hS ho
            have facc : ∀ w, w ≠ .active → ∀ l ≤ 10, worth m w l acc = r.tot w l := ht.fresh acc r old hr horphan hD
            -- nobody on the lines is still to be moved
            have offline : ∀ b, rank b < rank acc → (∃ i, up (refOf o) (i + 1) acc = some b) → ∀ k x p, o.get k = some x → Orphan o x p → ¬ D k → ∀ i, up (refOf m) i b ≠ some k := by
              rintro b hb1 ⟨i0, hi0⟩ k x p hk hx hkD i hi
              by_cases hka : k = acc
              · have := up_lower hum i b k hi
                rw [hka] at this
                omega
              · obtain ⟨i1, -, hi1⟩ := settling_line hm i b k hi
                have hlt := htd k acc p old (i0 + i1) (by rw [infoOf_get hk]; exact hx) (by rw [infoOf_get hr]; exact horphan)
                  (by rw [ancestor_up, show i0 + i1 + 1 = i0 + 1 + i1 by omega, up_add, hi0]; exact hi1)
                exact hkD ((hDl k x hk).2 hlt)
            have hold : ∃ i, up (refOf o) (i + 1) acc = some old := ⟨0, by show (some acc).bind (refOf o) = _; rw [Option.bind_some, refOf_of hr, href]⟩
            have hqline : ∃ i, up (refOf o) (i + 1) acc = some q := by
              obtain ⟨n, hn⟩ := firstOpen_line hfirst
              exact ⟨n + 1, by rw [up_succ, refOf_of hr, href]; exact hn⟩
            have off_old := offline old hro hold
            have off_q := offline q (by omega) hqline
            have hworth : ∀ wh, wh ≠ .active → ∀ c, ∀ l ≤ 10, worth (m1.set acc { r with referrer := some q }) wh l c =
                worth m wh l c - column (refOf m) (fun j => worth m wh j acc) old l c + column (refOf m) (fun j => worth m wh j acc) q l c := by
              intro wh hact c l hl
              have hcol : ∀ b, column (refOf m) (fun j => worth m wh j acc) b l c = column (refOf m) (fun j => r.tot wh j) b l c := by
                intro b
                unfold column
                apply Finset.sum_congr rfl
                intro i _
                dsimp only
                rw [facc wh hact (l - (i + 1)) (by omega)]
              rw [hcol, hcol]
              by_cases hca : c = acc
              · subst hca
                rw [column_off (off_old c r old hr horphan hD), column_off (off_q c r old hr horphan hD), facc wh hact l hl]
                unfold worth
                rw [infoOf_set, if_pos rfl, if_neg (by rintro ⟨-, e⟩; rw [show ({ r with referrer := some q } : Info).banished = r.banished from rfl, hban] at e; cases e)]
                show r.tot wh l = _
                omega
              · rw [← relink_money h3 hact hl c]
                unfold worth
                rw [infoOf_set, if_neg hca]
            refine ⟨fun wh hact => ?_, fun k y p hk ho hn wh hact l hl => ?_⟩
            · refine (ht.sums wh hact).move hwithin (hS hr) (hS hw) (hS hz1) (by rw [refOf_of f1, f5, href]) ?_ (fun c hc => ?_) (fun c _ l hl => hworth wh hact c l hl) (fun l hl => ?_)
              · unfold refOf; rw [infoOf_set, if_pos rfl]
              · rw [← congrFun hlk.ref c]
                unfold refOf
                rw [infoOf_set, if_neg hc]
              · rw [hworth wh hact acc l hl, column_off (off_old acc r old hr horphan hD), column_off (off_q acc r old hr horphan hD)]
                omega
            · have hkD : ¬ D k := fun e => hn (.inl e)
              rw [hworth wh hact k l hl, column_off (off_old k y p hk ho hkD), column_off (off_q k y p hk ho hkD), ← ht.fresh k y p hk ho hkD wh hact l hl]
              omega

theorem rehomeAll_summed {o : KV Nat Info} {now month : Int} {rank : Key → Nat} (hu : Upward o rank)
    (hb : ∀ k v, o.get k = some v → v.banished = true → v.referrer ≠ none) (htd : TopDown o) :
    ∀ (l d : List (Key × Info)) (m m' : KV Nat Info), o.entries = d ++ l → Settling o now month (fun k => k ∈ d.map Prod.fst) m →
      Summed o (fun k => k ∈ d.map Prod.fst) m → rehomeAll now month l m = some m' →
      Settling o now month (fun k => k ∈ o.keys) m' ∧ Summed o (fun k => k ∈ o.keys) m' := by
  intro l
  induction l with
  | nil =>
    intro d m m' hd hs ht h
    unfold rehomeAll at h
    cases h
    rw [List.append_nil] at hd
    unfold KV.keys
    rw [hd]
    exact ⟨hs, ht⟩
  | cons e l ih =>
    intro d m m' hd hm ht h
    unfold rehomeAll at h
    obtain ⟨m1, h1, h2⟩ := Option.bind_eq_some_iff.1 h
    have hk : o.keys = d.map Prod.fst ++ e.1 :: l.map Prod.fst := by unfold KV.keys; rw [hd]; simp
    have hDl := (keys_split hk).1
    have hr : o.get e.1 = some e.2 := KV.mem_entries.1 (by rw [hd]; simp)
    have hnD : e.1 ∉ d.map Prod.fst := fun h => lt_irrefl _ ((hDl _ _ hr).1 h)
    have t1 := rehomeOne_summed hu hb htd hDl hr hm ht h1
    have s1 := rehomeOne_settling hb hr hnD hm h1
    have e' : (fun k => k ∈ d.map Prod.fst ∨ k = e.1) = fun k => k ∈ (d ++ [e]).map Prod.fst := by
      funext k
      simp only [List.map_append, List.mem_append, List.map_cons, List.map_nil, List.mem_singleton]
    rw [e'] at t1 s1
    exact ih (d ++ [e]) m1 m' (by rw [hd]; simp) s1 t1 h2

theorem settling_keys {o m : KV Nat Info} {now month : Int} {D : Key → Prop} (hm : Settling o now month D m) : m.keys.toFinset = o.keys.toFinset := by
  ext k
  rw [List.mem_toFinset, List.mem_toFinset, KV.mem_keys, KV.mem_keys]
  constructor
  · rintro ⟨v, hv⟩
    cases ho : o.get k with
    | none => rw [hm.none k ho] at hv; cases hv
    | some u => exact ⟨u, rfl⟩
  · rintro ⟨v, hv⟩
    obtain ⟨u, hu, -⟩ := hm.some k v hv
    exact ⟨u, hu⟩

/-! ### The property -/

/-- C89: if accounts to be moved come before those to be moved below them, sums of money that were right before are right afterwards, and so are the lists. -/
theorem C89_sums_partial (s : State) (rank : Key → Nat) (hu : Upward s.store rank)
    (hb : ∀ k v, s.store.get k = some v → v.banished = true → v.referrer ≠ none) (htd : TopDown s.store) (h : MoneyMatches s.store) :
    MoneyMatches (rehome s).store ∧ (InLists s.store → InLists (rehome s).store) := by
  refine ⟨?_, fun hl => C89_lists_partial s rank hu hb hl ?_⟩
  · obtain ⟨m, hm⟩ := C89_goes_through s rank hu hb
    obtain ⟨h1, h2⟩ := rehomeAll_summed hu hb htd s.store.entries [] s.store m rfl (by simpa using settling_start s.store s.now s.month)
      ⟨(moneyMatches_iff hu).1 h, fun k v p hk ho _ w _ l _ => by unfold worth; rw [infoOf_get hk, if_neg (by rintro ⟨-, e⟩; rw [ho.1] at e; cases e)]⟩ hm
    unfold rehome
    rw [hm]
    refine (moneyMatches_iff (settling_upward hu h1)).2 fun w hw => ?_
    rw [settling_keys h1]
    exact h2.sums w hw
  · intro k r p q u hk ho hf hq hlt y hy
    obtain ⟨n, hn⟩ := firstOpen_line hf
    have := htd q k y p (n + 1) (by rw [infoOf_get hq]; exact hy) (by rw [infoOf_get hk]; exact ho)
      (by rw [ancestor_up, up_succ, refOf_of hk, ho.2.1]; exact hn)
    exact lt_asymm this hlt

end Verif.Referral
