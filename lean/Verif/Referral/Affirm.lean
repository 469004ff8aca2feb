import Verif.Referral.Props2
import Verif.Referral.QueryProps

/-! C84: transitions that are approved are carried out. -/
namespace Verif.Referral
open Relation

/-! ### Lines of ancestors -/

/-- The account `n` steps above `p`, where `p` itself is 0 steps above. -/
def lineOf (I : View) (p : Option Key) : Nat → Option Key
  | 0 => p
  | n + 1 => upOf I (lineOf I p n)

theorem lineOf_above {I : View} {p c : Key} : ∀ n, lineOf I (some p) n = some c → ReflTransGen (treeOf I).over c p
  | 0, h => by injection h with h; subst h; exact .refl
  | n + 1, h => by
    unfold lineOf upOf at h
    rw [Option.bind_eq_some_iff] at h
    obtain ⟨q, hq, h⟩ := h
    exact .head h (lineOf_above n hq)

theorem lineOf_add {I : View} {p : Option Key} (n : Nat) : ∀ m, lineOf I p (n + m) = lineOf I (lineOf I p n) m
  | 0 => rfl
  | m + 1 => by
    show upOf I (lineOf I p (n + m)) = upOf I (lineOf I (lineOf I p n) m)
    rw [lineOf_add n m]

theorem lineOf_once {I : View} (hI : ∀ x, ¬ TransGen (treeOf I).over x x) {p c : Key} {n m : Nat} (hn : lineOf I (some p) n = some c)
    (hm : lineOf I (some p) m = some c) : n = m := by
  have key : ∀ n m, n < m → lineOf I (some p) n = some c → lineOf I (some p) m = some c → False := by
    intro n m hlt hn hm
    obtain ⟨j, rfl⟩ : ∃ j, m = n + (j + 1) := ⟨m - n - 1, by omega⟩
    rw [lineOf_add, hn] at hm
    unfold lineOf upOf at hm
    rw [Option.bind_eq_some_iff] at hm
    obtain ⟨q, hq, hm⟩ := hm
    exact hI c (TransGen.head' hm (lineOf_above j hq))
  rcases Nat.lt_trichotomy n m with h | h | h
  · exact absurd (key n m h hn hm) id
  · exact h
  · exact absurd (key m n h hm hn) id

/-! ### Sums while totals move -/

theorem upTo_addTree (v r : Info) (sign : Int) {l : Nat} (hl : 1 ≤ l) : ∀ n, n ≤ 10 →
    (v.addTree sign r.tot l).delegatedUpTo n = v.delegatedUpTo n + sign * if l ≤ n then r.delegatedUpTo (n - l) else 0
  | 0, _ => by
    show (if l ≤ 0 ∧ 0 ≤ 10 then _ else _) = _
    rw [if_neg (by omega), if_neg (by omega)]
    simp [Info.delegatedUpTo]
  | n + 1, hn => by
    show (v.addTree sign r.tot l).delegatedUpTo n + (if l ≤ n + 1 ∧ n + 1 ≤ 10 then _ else _) = _
    rw [upTo_addTree v r sign hl n (by omega)]
    show _ = v.delegatedUpTo n + v.tot .delegated (n + 1) + _
    by_cases h1 : l ≤ n
    · rw [if_pos h1, if_pos (by omega), if_pos (by omega)]
      have e : n + 1 - l = (n - l) + 1 := by omega
      rw [e]
      show _ = _ + sign * (r.delegatedUpTo (n - l) + r.tot .delegated (n - l + 1))
      ring
    · rw [if_neg h1]
      by_cases h2 : l = n + 1
      · subst h2
        rw [if_pos (by omega), if_pos le_rfl]
        rw [Nat.sub_self]
        show _ = _ + sign * r.tot .delegated 0
        ring
      · rw [if_neg (by omega), if_neg (by omega)]
        ring

theorem upTo_congr {v w : Info} (h : w.tot = v.tot) (n : Nat) : w.delegatedUpTo n = v.delegatedUpTo n := by
  induction n with
  | zero => show w.tot _ _ = _; rw [h]; rfl
  | succ n ih => show w.delegatedUpTo n + w.tot _ _ = _; rw [ih, h]; rfl

/-- The sums of `J` lie between those of `I` without, and with, what is moved: `od` are the accounts from which it was taken, `nd` those that
got it. -/
structure Halfway (I : View) (B : Int) (od nd : Key → Prop) (J : View) : Prop where
  low : ∀ c n, n ≤ 10 → 0 ≤ (J c).delegatedUpTo n
  kept : ∀ c n, n ≤ 10 → ¬ od c → (I c).delegatedUpTo n ≤ (J c).delegatedUpTo n
  bare : ∀ c n, n ≤ 10 → ¬ nd c → (J c).delegatedUpTo n ≤ (I c).delegatedUpTo n
  high : ∀ c n, n ≤ 10 → (J c).delegatedUpTo n ≤ 2 * B

theorem Halfway.affordable {I J : View} {B : Int} {od nd : Key → Prop} (h : Halfway I B od nd J) (hB : B < 9223372036854775808) (c : Key) :
    Affordable (J c) := by
  intro n hn
  have := h.low c n hn
  have := h.high c n hn
  exact ⟨by omega, by omega⟩

theorem Halfway.sub {I J : View} {B : Int} {od nd : Key → Prop} (h : Halfway I B od nd J) {c : Key} (hc : ¬ od c) {r : Info} {l : Nat} (hl : 1 ≤ l)
    (h0 : ∀ n, n ≤ 10 → 0 ≤ r.delegatedUpTo n) (h1 : ∀ n, n ≤ 10 → l ≤ n → r.delegatedUpTo (n - l) ≤ (I c).delegatedUpTo n)
    {v : Info} (hv : v.tot = ((J c).addTree (-1) r.tot l).tot) : Halfway I B (fun j => od j ∨ j = c) nd (upd J c v) := by
  have e : ∀ n, n ≤ 10 → v.delegatedUpTo n = (J c).delegatedUpTo n + -1 * if l ≤ n then r.delegatedUpTo (n - l) else 0 := by
    intro n hn
    rw [upTo_congr hv, upTo_addTree _ _ _ hl n hn]
  refine ⟨fun j n hn => ?_, fun j n hn hj => ?_, fun j n hn hj => ?_, fun j n hn => ?_⟩
  · by_cases hjc : j = c
    · subst hjc
      rw [upd_self, e n hn]
      have := h.low j n hn
      have := h.kept j n hn hc
      split
      · have := h1 n hn ‹_›
        omega
      · omega
    · rw [upd_ne _ _ hjc]; exact h.low j n hn
  · rw [not_or] at hj
    rw [upd_ne _ _ hj.2]; exact h.kept j n hn hj.1
  · by_cases hjc : j = c
    · subst hjc
      rw [upd_self, e n hn]
      have := h.bare j n hn hj
      split
      · have := h0 (n - l) (by omega)
        omega
      · omega
    · rw [upd_ne _ _ hjc]; exact h.bare j n hn hj
  · by_cases hjc : j = c
    · subst hjc
      rw [upd_self, e n hn]
      have := h.high j n hn
      split
      · have := h0 (n - l) (by omega)
        omega
      · omega
    · rw [upd_ne _ _ hjc]; exact h.high j n hn

theorem Halfway.add {I J : View} {B : Int} {od nd : Key → Prop} (h : Halfway I B od nd J) {c : Key} (hc : ¬ nd c) {r : Info} {l : Nat} (hl : 1 ≤ l)
    (h0 : ∀ n, n ≤ 10 → 0 ≤ r.delegatedUpTo n) (h1 : ∀ n, n ≤ 10 → r.delegatedUpTo n ≤ B) (h2 : ∀ n, n ≤ 10 → (I c).delegatedUpTo n ≤ B)
    {v : Info} (hv : v.tot = ((J c).addTree 1 r.tot l).tot) : Halfway I B od (fun j => nd j ∨ j = c) (upd J c v) := by
  have e : ∀ n, n ≤ 10 → v.delegatedUpTo n = (J c).delegatedUpTo n + 1 * if l ≤ n then r.delegatedUpTo (n - l) else 0 := by
    intro n hn
    rw [upTo_congr hv, upTo_addTree _ _ _ hl n hn]
  refine ⟨fun j n hn => ?_, fun j n hn hj => ?_, fun j n hn hj => ?_, fun j n hn => ?_⟩
  · by_cases hjc : j = c
    · subst hjc
      rw [upd_self, e n hn]
      have := h.low j n hn
      split
      · have := h0 (n - l) (by omega)
        omega
      · omega
    · rw [upd_ne _ _ hjc]; exact h.low j n hn
  · by_cases hjc : j = c
    · subst hjc
      rw [upd_self, e n hn]
      have := h.kept j n hn hj
      split
      · have := h0 (n - l) (by omega)
        omega
      · omega
    · rw [upd_ne _ _ hjc]; exact h.kept j n hn hj
  · rw [not_or] at hj
    rw [upd_ne _ _ hj.2]; exact h.bare j n hn hj.1
  · by_cases hjc : j = c
    · subst hjc
      rw [upd_self, e n hn]
      have := h.bare j n hn hc
      have := h2 n hn
      have := h.high j n hn
      have := h0 n hn
      have := h1 n hn
      split
      · have := h1 (n - l) (by omega)
        omega
      · omega
    · rw [upd_ne _ _ hjc]; exact h.high j n hn

/-! ### The move -/

/-- What is known of the structure before the move of `k`, whose record is `r`, from below `a` to below `b` -/
structure Move (I : View) (B : Int) (k a b : Key) (r : Info) : Prop where
  small : B < 9223372036854775808
  nonneg : ∀ n, n ≤ 10 → 0 ≤ r.delegatedUpTo n
  most : ∀ n, n ≤ 10 → r.delegatedUpTo n ≤ B
  all : ∀ c n, n ≤ 10 → (I c).delegatedUpTo n ≤ B
  within : ∀ i c n, lineOf I (some a) i = some c → n ≤ 10 → i + 1 ≤ n → r.delegatedUpTo (n - (i + 1)) ≤ (I c).delegatedUpTo n
  onceA : ∀ i j c, lineOf I (some a) i = some c → lineOf I (some a) j = some c → i = j
  onceB : ∀ i j c, lineOf I (some b) i = some c → lineOf I (some b) j = some c → i = j
  awayA : ∀ i, lineOf I (some a) i ≠ some k
  awayB : ∀ i, lineOf I (some b) i ≠ some k

theorem moveTotals_succeeds {I : View} {B : Int} {k a b : Key} {r : Info} (H : Move I B k a b r) :
    ∀ (n m : Nat) (s : State) (od nd : Key → Prop), Ready s → Halfway I B od nd (view s.work) →
      (∀ c, od c → ∃ i < m, lineOf I (some a) i = some c) → (∀ c, nd c → ∃ i < m, lineOf I (some b) i = some c) →
      (∀ c, c ≠ k → (view s.work c).referrer = (I c).referrer) →
      ∃ t, moveTotals r.tot n (m + 1) (lineOf I (some a) m) (lineOf I (some b) m) s = (.ok (), t) := by
  intro n
  induction n with
  | zero => intro m s od nd _ _ _ _ _; exact ⟨s, rfl⟩
  | succ n ih =>
    intro m s od nd hs hm hod hnd hre
    unfold moveTotals
    split
    · exact ⟨s, rfl⟩
    · have up : ∀ (x : Key) (u : State), (∀ c, c ≠ k → (view u.work c).referrer = (I c).referrer) → lineOf I (some x) m ≠ some k →
          upOf (view u.work) (lineOf I (some x) m) = lineOf I (some x) (m + 1) := by
        intro x u hu hx
        show upOf _ _ = upOf I (lineOf I (some x) m)
        cases hl : lineOf I (some x) m with
        | none => rfl
        | some c =>
          show (view u.work c).referrer = (I c).referrer
          exact hu c fun e => hx (by rw [hl, e])
      -- the old line
      have h1 : ∃ s1, (match lineOf I (some a) m with
          | none => (pure none : Act (Option Key))
          | some a => update a true (fun v => pure (v.addTree (-1) r.tot (m + 1), v.referrer))) s = (.ok (lineOf I (some a) (m + 1)), s1) ∧
          Ready s1 ∧ (∀ c, c ≠ k → (view s1.work c).referrer = (I c).referrer) ∧
          ∃ od', Halfway I B od' nd (view s1.work) ∧ ∀ c, od' c → ∃ i < m + 1, lineOf I (some a) i = some c := by
        have hup := up a s hre (H.awayA m)
        cases hl : lineOf I (some a) m with
        | none =>
          rw [hl] at hup
          refine ⟨s, ?_, hs, hre, od, hm, fun c hc => ?_⟩
          · rw [← hup]; rfl
          · obtain ⟨i, hi, h⟩ := hod c hc
            exact ⟨i, by omega, h⟩
        | some c =>
          rw [hl] at hup
          have hc : ¬ od c := fun h => by
            obtain ⟨i, hi, h⟩ := hod c h
            have := H.onceA i m c h hl
            omega
          have hm' := hm.sub hc (l := m + 1) (by omega) H.nonneg (fun n hn hln => H.within m c n hl hn hln)
            (v := core ((infoOf s.work c).addTree (-1) r.tot (m + 1))) rfl
          have haff := hm'.affordable H.small c
          rw [upd_self] at haff
          obtain ⟨s1, h1, hs1⟩ := update_succeeds (k := c) (f := fun v => pure (v.addTree (-1) r.tot (m + 1), v.referrer)) (s := s) (s1 := s)
            (w := (infoOf s.work c).addTree (-1) r.tot (m + 1)) (a := (infoOf s.work c).referrer) rfl (haff.congr fun _ => rfl)
            (hs.low.work c) (fun x hx => hs.stored c x hx) hs
          obtain ⟨w', s1', h1', -, hv, -⟩ := update_ok h1
          simp at h1'
          obtain ⟨rfl, rfl⟩ := h1'
          refine ⟨s1, ?_, hs1, ?_, _, by rw [hv]; exact hm', ?_⟩
          · rw [← hup]; exact h1
          · intro j hj
            rw [hv]
            by_cases hjc : j = c
            · subst hjc; rw [upd_self]; exact hre j hj
            · rw [upd_ne _ _ hjc]; exact hre j hj
          · rintro j (hj | rfl)
            · obtain ⟨i, hi, h⟩ := hod j hj
              exact ⟨i, by omega, h⟩
            · exact ⟨m, by omega, hl⟩
      obtain ⟨s1, h1, hs1, hre1, od', hm1, hod1⟩ := h1
      have h2 : ∃ s2, (match lineOf I (some b) m with
          | none => (pure none : Act (Option Key))
          | some a => update a true (fun v => pure (v.addTree 1 r.tot (m + 1), v.referrer))) s1 = (.ok (lineOf I (some b) (m + 1)), s2) ∧
          Ready s2 ∧ (∀ c, c ≠ k → (view s2.work c).referrer = (I c).referrer) ∧
          ∃ nd', Halfway I B od' nd' (view s2.work) ∧ ∀ c, nd' c → ∃ i < m + 1, lineOf I (some b) i = some c := by
        have hup := up b s1 hre1 (H.awayB m)
        cases hl : lineOf I (some b) m with
        | none =>
          rw [hl] at hup
          refine ⟨s1, ?_, hs1, hre1, nd, hm1, fun c hc => ?_⟩
          · rw [← hup]; rfl
          · obtain ⟨i, hi, h⟩ := hnd c hc
            exact ⟨i, by omega, h⟩
        | some c =>
          rw [hl] at hup
          have hc : ¬ nd c := fun h => by
            obtain ⟨i, hi, h⟩ := hnd c h
            have := H.onceB i m c h hl
            omega
          have hm' := hm1.add hc (l := m + 1) (by omega) H.nonneg H.most (H.all c)
            (v := core ((infoOf s1.work c).addTree 1 r.tot (m + 1))) rfl
          have haff := hm'.affordable H.small c
          rw [upd_self] at haff
          obtain ⟨s2, h2, hs2⟩ := update_succeeds (k := c) (f := fun v => pure (v.addTree 1 r.tot (m + 1), v.referrer)) (s := s1) (s1 := s1)
            (w := (infoOf s1.work c).addTree 1 r.tot (m + 1)) (a := (infoOf s1.work c).referrer) rfl (haff.congr fun _ => rfl)
            (hs1.low.work c) (fun x hx => hs1.stored c x hx) hs1
          obtain ⟨w', s1', h1', -, hv, -⟩ := update_ok h2
          simp at h1'
          obtain ⟨rfl, rfl⟩ := h1'
          refine ⟨s2, ?_, hs2, ?_, _, by rw [hv]; exact hm', ?_⟩
          · rw [← hup]; exact h2
          · intro j hj
            rw [hv]
            by_cases hjc : j = c
            · subst hjc; rw [upd_self]; exact hre1 j hj
            · rw [upd_ne _ _ hjc]; exact hre1 j hj
          · rintro j (hj | rfl)
            · obtain ⟨i, hi, h⟩ := hnd j hj
              exact ⟨i, by omega, h⟩
            · exact ⟨m, by omega, hl⟩
      obtain ⟨s2, h2, hs2, hre2, nd', hm2, hnd2⟩ := h2
      obtain ⟨t, ht⟩ := ih (m + 1) s2 od' nd' hs2 hm2 hod1 hnd2 hre2
      exact ⟨t, (M.bind_ok h1).trans ((M.bind_ok h2).trans ht)⟩

theorem removeFast_sub {x y : Key} {l : List Key} (h : y ∈ removeFast l x) : y ∈ l := by
  by_cases hx : x ∈ l
  · exact (removeFast_perm hx).mem_iff.1 (List.mem_cons_of_mem _ h)
  · rw [removeFast_of_notMem hx] at h; exact h

theorem leave_frame {k a : Key} {r : Info} {s s1 : State} {o : Option Key} (h : update a true (leave k r) s = (.ok o, s1)) {c : Key}
    (hc : s.work.has c = true) : s1.work.has c = true := by
  have hf : Framed (update a true (leave k r)) := Framed.update fun v => (Still.bind (.panicIf _) fun _ => .pure _).framed
  exact (hf.of h).grows c hc

theorem moveBody_succeeds {I : View} {B : Int} {k a b : Key} {r : Info} (H : Move I B k a b r) (hab : a ≠ b) {s : State} (hs : Ready s)
    (hI : ∀ c, c ≠ k → view s.work c = I c) (hI0 : ∀ c n, n ≤ 10 → 0 ≤ (I c).delegatedUpTo n) (hk : (view s.work k).tot = (I k).tot)
    (hm : k ∈ (view s.work a).referrals) (hkey : s.work.has k = true) : ∃ t, moveBody k r a b s = (.ok true, t) := by
  have hak : a ≠ k := fun e => H.awayA 0 (by rw [e]; rfl)
  have hbk : b ≠ k := fun e => H.awayB 0 (by rw [e]; rfl)
  have hB : 0 ≤ B := (H.nonneg 0 (by omega)).trans (H.most 0 (by omega))
  have eq : ∀ c n, (view s.work c).delegatedUpTo n = (I c).delegatedUpTo n := by
    intro c n
    by_cases hc : c = k
    · subst hc; exact upTo_congr hk n
    · rw [hI c hc]
  have m0 : Halfway I B (fun _ => False) (fun _ => False) (view s.work) :=
    ⟨fun c n hn => by rw [eq]; exact hI0 c n hn, fun c n _ _ => by rw [eq], fun c n _ _ => by rw [eq],
      fun c n hn => by rw [eq]; have := H.all c n hn; omega⟩
  have m1 := m0.sub (c := a) (fun h => h) (l := 1) (by omega) H.nonneg (fun n hn hln => H.within 0 a n rfl hn hln)
    (v := core (left k r (infoOf s.work a))) rfl
  have a1 := m1.affordable H.small a
  rw [upd_self] at a1
  have hmem : (infoOf s.work a).referrals.contains k = true := by
    rw [List.contains_iff_mem]; exact hm
  have hleave : leave k r (infoOf s.work a) s = (.ok (left k r (infoOf s.work a), (infoOf s.work a).referrer), s) := by
    unfold leave
    rw [hmem]
    rfl
  obtain ⟨s1, h1, hs1⟩ := update_succeeds (k := a) (f := leave k r) (s := s) (s1 := s) hleave (a1.congr fun _ => rfl) (hs.low.work a)
    (fun x hx => hs.stored a x (by
      have hx : x ∈ (if r.active then removeFast (infoOf s.work a).activeReferrals k else (infoOf s.work a).activeReferrals) := hx
      split at hx
      · exact removeFast_sub hx
      · exact hx)) hs
  obtain ⟨w, s', h1', -, hv1, -⟩ := update_ok h1
  rw [hleave] at h1'
  cases h1'
  have hv1 : view s1.work = upd (view s.work) a (core (left k r (infoOf s.work a))) := hv1
  have hba : b ≠ a := fun e => hab e.symm
  have m1' : Halfway I B (fun j => False ∨ j = a) (fun _ => False) (view s1.work) := by rw [hv1]; exact m1
  have m2 := m1'.add (c := b) (fun h => h) (l := 1) (by omega) H.nonneg H.most (H.all b) (v := core (joined k r (infoOf s1.work b))) rfl
  have a2 := m2.affordable H.small b
  rw [upd_self] at a2
  obtain ⟨s2, h2, hs2⟩ := update_succeeds (k := b) (f := join k r) (s := s1) (s1 := s1) (w := joined k r (infoOf s1.work b))
    (a := (infoOf s1.work b).referrer) rfl (a2.congr fun _ => rfl) (hs1.low.work b)
    (fun x hx => by
      have hx : x ∈ (if r.active then (infoOf s1.work b).activeReferrals ++ [k] else (infoOf s1.work b).activeReferrals) := hx
      split at hx
      · rcases List.mem_append.1 hx with hx | hx
        · exact hs1.stored b x hx
        · rw [List.mem_singleton.1 hx]; exact leave_frame h1 hkey
      · exact hs1.stored b x hx) hs1
  obtain ⟨w, s', h2', -, hv2, -⟩ := update_ok h2
  cases h2'
  have hre1 : ∀ c, c ≠ k → (view s1.work c).referrer = (I c).referrer := by
    intro c hc
    rw [hv1]
    by_cases h : c = a
    · subst h; rw [upd_self, ← hI c hc]; rfl
    · rw [upd_ne _ _ h, hI c hc]
  have hre2 : ∀ c, c ≠ k → (view s2.work c).referrer = (I c).referrer := by
    intro c hc
    rw [hv2]
    by_cases h : c = b
    · subst h; rw [upd_self, ← hre1 c hc]; rfl
    · rw [upd_ne _ _ h, hre1 c hc]
  obtain ⟨t, ht⟩ := moveTotals_succeeds H 9 1 s2 _ _ hs2 (by rw [hv2]; exact m2)
    (by rintro c (h | rfl); exacts [h.elim, ⟨0, by omega, rfl⟩]) (by rintro c (h | rfl); exacts [h.elim, ⟨0, by omega, rfl⟩]) hre2
  refine ⟨t, ?_⟩
  unfold moveBody
  have eo : lineOf I (some a) 1 = (infoOf s.work a).referrer := by
    show (I a).referrer = _
    rw [← hI a hak]; rfl
  have en : lineOf I (some b) 1 = (infoOf s1.work b).referrer := by
    show (I b).referrer = _
    rw [← hre1 b hbk]; rfl
  rw [M.bind_ok h1, M.bind_ok h2, ← eo, ← en, M.bind_ok ht]
  rfl

/-! ### The theorem -/

theorem sum_subset {L K : List Key} {f : Key → Int} (hL : L.Nodup) (h0 : ∀ c, 0 ≤ f c) (hs : ∀ c ∈ L, c ∈ K) : (L.map f).sum ≤ (K.map f).sum := by
  have h1 := sum_le_of_support L K (fun c => if c ∈ L then f c else 0) hL (fun c => by
    show 0 ≤ if c ∈ L then f c else 0
    split
    · exact h0 c
    · exact le_rfl) (fun c hc => if_neg fun h => hc (hs c h))
  have h2 : L.map (fun c => if c ∈ L then f c else 0) = L.map f := List.map_congr_left fun c hc => if_pos hc
  have h3 : (K.map fun c => if c ∈ L then f c else 0).sum ≤ (K.map f).sum := by
    refine List.sum_le_sum fun c _ => ?_
    show (if c ∈ L then f c else 0) ≤ f c
    split
    · exact le_rfl
    · exact h0 c
  rw [h2] at h1
  exact h1.trans h3

theorem upTo_reach {P : Key → Prop} {I : View} (hI : Neat 10 P I) {n : Nat} (hn : n ≤ 10) (c : Key) :
    (I c).delegatedUpTo n = ((reach I n c).map fun c => (I c).tot .delegated 0).sum := by
  rw [upTo_eq, ← sum_reach hI.sums .delegated c n hn]

/-- The network of a referral is part of the network of its referrer. -/
theorem upTo_child {P : Key → Prop} {I : View} (hI : Neat 10 P I) (h0 : ∀ c, 0 ≤ (I c).tot .delegated 0) {c d : Key} (hd : d ∈ (I c).referrals)
    {m : Nat} (hm : m + 1 ≤ 10) : (I d).delegatedUpTo m ≤ (I c).delegatedUpTo (m + 1) := by
  rw [upTo_reach hI (by omega), upTo_reach hI hm]
  refine sum_subset (reach_once hI.forest m d) h0 fun x hx => ?_
  unfold reach at hx ⊢
  refine List.mem_cons_of_mem _ (List.mem_flatMap.2 ?_)
  rcases List.mem_cons.1 hx with rfl | hx
  · exact ⟨0, List.mem_range.2 (by omega), hd⟩
  · obtain ⟨l, hl, hx⟩ := List.mem_flatMap.1 hx
    exact ⟨l + 1, List.mem_range.2 (by have := List.mem_range.1 hl; omega), List.mem_flatMap.2 ⟨d, hd, hx⟩⟩

theorem upTo_line {P : Key → Prop} {I : View} (hI : Neat 10 P I) (h0 : ∀ c, 0 ≤ (I c).tot .delegated 0) {a d : Key} (hd : d ∈ (I a).referrals) :
    ∀ (i : Nat) (c : Key), lineOf I (some a) i = some c →
      (I c).banished = false ∧ ∀ m, m + i + 1 ≤ 10 → (I d).delegatedUpTo m ≤ (I c).delegatedUpTo (m + i + 1)
  | 0, c, h => by
    injection h with h
    subst h
    refine ⟨?_, fun m hm => upTo_child hI h0 hd (by omega)⟩
    cases hb : (I a).banished with
    | false => rfl
    | true => rw [hI.tidy.leaf a hb] at hd; cases hd
  | i + 1, c, h => by
    unfold lineOf upOf at h
    rw [Option.bind_eq_some_iff] at h
    obtain ⟨q, hq, h⟩ := h
    obtain ⟨hb, hq⟩ := upTo_line hI h0 hd i q hq
    have hmem : q ∈ (I c).referrals := (hI.forest.mem c q).2 ⟨h, hb⟩
    refine ⟨?_, fun m hm => ?_⟩
    · cases hb : (I c).banished with
      | false => rfl
      | true => rw [hI.tidy.leaf c hb] at hmem; cases hmem
    · refine (hq m (by omega)).trans ?_
      exact upTo_child hI h0 hmem (m := m + i + 1) (by omega)

/-- **C84, approval.** In executions that meet `acceptOk` (in particular nobody is compressed in the midst of a line of ten levels or more, and
nobody with referrals is banished), when the callbacks of the other modules succeed, the stored own delegations are not negative and add up to less than 2⁶³, and the times involved are
before 2263: the approval by the current referrer of a pending transition of an account that is not banished goes through exactly when the
subject may still be moved at that moment, whatever happened since the request. -/
theorem C84_approved_partial (l : List (Env × Op)) (s : State) (h0 : s.start) (hw : s.work = KV.empty) (h : Along acceptOk l s) (e : Env)
    (he : ∀ c k, e.call c k = true) (k a b : Key) :
    let t := run l s
    (infoOf t.store k).referrer = some a → (infoOf t.store k).banished = false → (infoOf t.store k).transition = some b →
    (∀ c, 0 ≤ (infoOf t.store c).tot .delegated 0) →
    (t.store.keys.map fun c => (infoOf t.store c).tot .delegated 0).sum < 9223372036854775808 →
    Schedule.inRange (t.now + 2 * t.day) = true →
    ((resolveTransition e a k true t).1 = .ok () ↔ Movable t k b) := by
  intro t hra hban htr hnn hsum hsoon
  obtain ⟨ht, hl, hlow⟩ := accept_inv l s h0 hw h
  have hf : Forest (treeOf (view t.store)) _ := ht.forest
  obtain ⟨v1, v2⟩ := validate_total hf k b false (by rw [htr]; rfl)
  have eres : resolveTransition e a k true t = affirmTransition e k t := by
    unfold resolveTransition
    rw [M.bind_ok (M.get_apply t), hra]
    simp only [bne_self_eq_false]
    rw [M.bind_ok (show M.errIf false t = (.ok (), t) from rfl)]
    rfl
  rw [eres]
  unfold affirmTransition
  rw [M.bind_ok (M.get_apply t), htr]
  by_cases hm : Movable t k b
  swap
  · rw [M.bind_apply, v2 hm]
    simp [hm]
  refine ⟨fun _ => hm, fun _ => ?_⟩
  rw [M.bind_ok (v1 hm)]
  have e1 : setInfo k { infoOf t.store k with referrer := some b, transition := none } t =
    (.ok (), { t with store := t.store.set k { infoOf t.store k with referrer := some b, transition := none } }) := rfl
  rw [M.bind_ok e1, hra]
  have hnb : ¬ ReflTransGen (treeOf (view t.store)).over k b := validated_notBelow (v1 hm)
  have irr : ∀ x, ¬ TransGen (treeOf (view t.store)).over x x := fun x h => no_loop hf h .refl
  have hka : k ∈ (view t.store a).referrals := (hf.mem a k).2 ⟨hra, hban⟩
  have hkey : t.store.has k = true := by
    cases hh : t.store.has k with
    | true => rfl
    | false => rw [infoOf_of_not_has hh] at hra; cases hra
  have hz : ∀ c, c ∉ t.store.keys → (view t.store c).tot .delegated 0 = 0 := by
    intro c hc
    rw [mem_keys_of_has] at hc
    show (infoOf t.store c).tot .delegated 0 = 0
    rw [infoOf_of_not_has (by simpa using hc)]
  have hle : ∀ c n, n ≤ 10 → 0 ≤ (view t.store c).delegatedUpTo n ∧
      (view t.store c).delegatedUpTo n ≤ (t.store.keys.map fun c => (infoOf t.store c).tot .delegated 0).sum := by
    intro c n hn
    rw [upTo_reach ht hn]
    exact ⟨List.sum_nonneg fun x hx => by
      obtain ⟨y, -, rfl⟩ := List.mem_map.1 hx
      exact hnn y, sum_le_of_support _ _ _ (reach_once hf n c) hnn hz⟩
  have H : Move (view t.store) ((t.store.keys.map fun c => (infoOf t.store c).tot .delegated 0).sum) k a b (infoOf t.store k) := by
    have hu : ∀ n, (infoOf t.store k).delegatedUpTo n = (view t.store k).delegatedUpTo n := upTo_congr rfl
    refine ⟨hsum, fun n hn => by rw [hu]; exact (hle k n hn).1, fun n hn => by rw [hu]; exact (hle k n hn).2, fun c n hn => (hle c n hn).2, ?_, ?_, ?_, ?_, ?_⟩
    · intro i c n hc hn hi
      have := (upTo_line ht hnn hka i c hc).2 (n - (i + 1)) (by omega)
      rw [show n - (i + 1) + i + 1 = n by omega] at this
      rw [hu]
      exact this
    · intro i j c; exact lineOf_once irr
    · intro i j c; exact lineOf_once irr
    · intro i hi
      exact irr k (TransGen.tail' (lineOf_above i hi) hra)
    · intro i hi
      exact hnb (lineOf_above i hi)
  have hab : a ≠ b := fun e => hm.new (by rw [hra, e])
  have hs : Ready ({ t with store := t.store.set k { infoOf t.store k with referrer := some b, transition := none },
                            work := t.store.set k { infoOf t.store k with referrer := some b, transition := none }, calls := [] }) := by
    refine ⟨⟨hlow.store.set (hlow.store k), hlow.store.set (hlow.store k)⟩, fun x c hc => ?_, hsoon⟩
    have hc' : c ∈ (view t.store x).activeReferrals := by
      have hc : c ∈ (view (t.store.set k { infoOf t.store k with referrer := some b, transition := none }) x).activeReferrals := hc
      rw [view_set] at hc
      by_cases hx : x = k
      · subst hx; rw [upd_self] at hc; exact hc
      · rw [upd_ne _ _ hx] at hc; exact hc
    have hr : (infoOf t.store c).referrer = some x := ((hl.mem x c).1 hc').1
    show (t.store.set k _).has c = true
    rw [has_set, Bool.or_eq_true]
    right
    cases hh : t.store.has c with
    | true => rfl
    | false => rw [infoOf_of_not_has hh] at hr; cases hr
  have hak : a ≠ k := fun e => irr k (.single (by rw [e] at hra; exact hra))
  obtain ⟨u, hu⟩ := moveBody_succeeds H hab hs (fun c hc => by
      show view (t.store.set k _) c = _
      rw [view_set, upd_ne _ _ hc]) (fun c n hn => (hle c n hn).1) (by
      show (view (t.store.set k _) k).tot = _
      rw [view_set, upd_self]; rfl) (by
      show k ∈ (view (t.store.set k _) a).referrals
      rw [view_set, upd_ne _ _ hak]; exact hka) (by
      show (t.store.set k _).has k = true
      rw [has_set]; simp)
  show (must (bunch e (moveBody k (infoOf t.store k) a b)) _).1 = _
  have hbunch : bunch e (moveBody k (infoOf t.store k) a b)
      { t with store := t.store.set k { infoOf t.store k with referrer := some b, transition := none } } = (.ok (), { u with store := u.work }) := by
    have e0 : bunch e (moveBody k (infoOf t.store k) a b)
        { t with store := t.store.set k { infoOf t.store k with referrer := some b, transition := none } } =
      (moveBody k (infoOf t.store k) a b >>= fun b => if b then commit e else pure ())
        ({ t with store := t.store.set k { infoOf t.store k with referrer := some b, transition := none },
                  work := t.store.set k { infoOf t.store k with referrer := some b, transition := none }, calls := [] }) := rfl
    rw [e0, M.bind_ok hu, if_pos rfl]
    unfold commit
    rw [M.bind_ok (M.modify_apply _ u), M.bind_ok (M.get_apply _)]
    have : (!u.calls.all fun c => e.call c.1 c.2) = false := by
      rw [Bool.not_eq_false', List.all_eq_true]
      exact fun c _ => he _ _
    show M.errIf (!u.calls.all fun c => e.call c.1 c.2) _ = _
    rw [this]; rfl
  unfold must
  rw [hbunch]

/-! ### Cases and findings -/

/-- Account 3, which delegates 30000, asks to be moved from 2 to 4. -/
def asking : List (Env × Op) := delegators ++ [(fine, .request (text 3) (some (text 4)))]

theorem asking_ok : Along acceptOk asking plain :=
  ⟨⟨trivial, trivial⟩, ⟨(show text 1 ≠ text 0 by decide), trivial⟩, ⟨(show text 2 ≠ text 1 by decide), trivial⟩, ⟨(show text 3 ≠ text 2 by decide), trivial⟩,
    ⟨(show text 4 ≠ text 0 by decide), trivial⟩, ⟨trivial, trivial⟩, ⟨trivial, trivial⟩, ⟨trivial, trivial⟩, trivial⟩

example : plain.start ∧ plain.work = KV.empty ∧ (infoOf (run asking plain).store (text 3)).referrer = some (text 2) ∧
    (infoOf (run asking plain).store (text 3)).banished = false ∧ (infoOf (run asking plain).store (text 3)).transition = some (text 4) ∧
    ((run asking plain).store.keys.map fun c => (infoOf (run asking plain).store c).tot .delegated 0) = [0, 0, 0, 30000, 7] ∧
    Schedule.inRange ((run asking plain).now + 2 * (run asking plain).day) = true ∧
    (resolveTransition fine (text 2) (text 3) true (run asking plain)).1 = .ok () ∧
    (infoOf (step fine (.resolve (text 2) (text 3) true) (run asking plain)).store (text 3)).referrer = some (text 4) := by
  refine ⟨rfl, rfl, ?_, ?_, ?_, ?_, ?_, ?_, ?_⟩ <;> decide +kernel

/-- The condition that the subject is not banished is needed: the query says that a banished account may be moved, and its request is
accepted, but approval crashes. -/
theorem C84_banished_violation : ∃ (l : List (Env × Op)) (s : State) (k a b : Key), s.start ∧ Along acceptOk l s ∧
    (infoOf (run l s).store k).banished = true ∧ (infoOf (run l s).store k).referrer = some a ∧ queryTransition (run l s) k (some b) = .ok true ∧
    (let t := run [(fine, .request k (some b))] (run l s);
      (infoOf t.store k).transition = some b ∧ (resolveTransition fine a k true t).1 = .panic) := by
  refine ⟨returning, plain, text 2, text 1, text 0, rfl, ?_, ?_, ?_, ?_, ?_, ?_⟩
  · exact ⟨⟨trivial, trivial⟩, ⟨⟨(show text 1 ≠ text 0 by decide), by decide +kernel⟩, trivial⟩, ⟨⟨(show text 2 ≠ text 1 by decide), by decide +kernel⟩, trivial⟩,
      ⟨trivial, trivial⟩, ⟨trivial, trivial⟩, ⟨trivial, trivial⟩, ⟨(show (infoOf _ _).referrals = [] by decide +kernel), trivial⟩, trivial⟩
  all_goals decide +kernel

/-- An account at the top of the structure may ask to be moved, and has the request accepted, but nobody can resolve it. -/
theorem C84_top_violation : ∃ (l : List (Env × Op)) (s : State) (k b : Key), s.start ∧ Along acceptOk l s ∧
    (run l s).store.has k = true ∧ queryTransition (run l s) k (some b) = .ok true ∧
    (let t := run [(fine, .request k (some b))] (run l s);
      (infoOf t.store k).transition = some b ∧ ∀ e g b, step e (.resolve g k b) t = t) := by
  refine ⟨[(fine, .top (text 0)), (fine, .top (text 1))], plain, text 0, text 1, rfl, ⟨⟨trivial, trivial⟩, ⟨trivial, trivial⟩, trivial⟩, ?_, ?_, ?_, ?_⟩
  · decide +kernel
  · decide +kernel
  · decide +kernel
  · intro e g b
    refine C27_resolver e g _ b _ ?_
    have : (infoOf (run [(fine, .request (text 0) (some (text 1)))] (run [(fine, .top (text 0)), (fine, .top (text 1))] plain)).store
        (text 0)).referrer = none := by decide +kernel
    rw [this]
    simp

end Verif.Referral
