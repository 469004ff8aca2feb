import Verif.Referral.Totals2

/-!
Property C95: version 2.1.0 puts the banishments in order (`ScheduleBanishment`, /repo/app/upgrade.go:90-257).

The payload of a task is a list of numbers here: `[k]` is the text `k` of an address, `[a, 0]` the twenty bytes of the address `a` (this is
what the chain was started with, C94), every other list some other bytes.  Records of accounts may be stored under such other bytes too.

Simplifications: other bytes that begin with "artr1" like an address are left out (a text with a wrong checksum); an empty list of delegated
amounts reads as zero, which is the same because `DustDelegation` is not negative; `Int64()` of an amount beyond 64 bits panics; all is
written into a branch of the store that is kept in the end, hence the branch does not appear; an iterator shows what was there when it was
made (a fact about the SDK).
-/
namespace Verif.Referral
open Verif.Schedule (Task)

/-! ### Model -/

/-- The stores the upgrade works on: `strays` are the records stored under other bytes than the text of an address. -/
structure Site where
  s : State
  strays : List Nat → Option Info

/-- `task.Data` after the switch, upgrade.go:120-145 -/
def restored : List Nat → List Nat
  | [a, 0] => [text a]
  | d => d

/-- `addr.String()` after the switch, upgrade.go:120-145; the empty text if there is no address. -/
def namedBy : List Nat → List Nat
  | [a, 0] => [text a]
  | [k] => [text (addrOf k)]
  | _ => []

/-- `rStore.Get(task.Data)`, upgrade.go:147-148 -/
def Site.look (x : Site) : List Nat → Info
  | [k] => infoOf x.s.store k
  | d => (x.strays d).getD {}

/-- `rStore.Set(task.Data, …)`, upgrade.go:173, 190, 201 and 209 -/
def Site.save (x : Site) (d : List Nat) (v : Info) : Site :=
  match d with
  | [k] => { x with s := { x.s with store := x.s.store.set k v } }
  | d => { x with strays := fun e => if e = d then some v else x.strays e }

/-- Is the compression of the account scheduled for that moment?  upgrade.go:151-164 -/
def expected (s : State) (c : Int) (name : List Nat) : Bool :=
  ((s.sched.store.get c).getD []).any fun t => t.handler == compressionHook && t.data == name

/-- One banishment: the task to keep if any, and the stores; upgrade.go:117-213. -/
def fixTask (x : Site) (t : Task) : Option Task × Site :=
  let d := restored t.data
  let r := x.look d
  let ahead := r.compressionAt.any fun c => decide (x.s.now < c)
  let found := r.compressionAt.any fun c => expected x.s c (namedBy t.data)
  let r' : Info := if ahead && !found then { r with compressionAt := none } else r
  let x' := if ahead && !found then x.save d r' else x
  if r.active || r.banished || (ahead && found) || decide (x.s.dust < r.tot .delegated 0) then
    (none, if r'.banishmentAt.isSome then x'.save d { r' with banishmentAt := none } else x')
  else (some { t with data := d }, if r'.banishmentAt = some t.time then x' else x'.save d { r' with banishmentAt := some t.time })

/-- The tasks of a moment: the tasks to keep, whether anything has changed, and the stores; upgrade.go:112-216. -/
def fixTasks : List Task → Site → (List Task × Bool) × Site
  | [], x => (([], false), x)
  | t :: l, x =>
    if t.handler = banishHook then
      let o := fixTask x t
      let r := fixTasks l o.2
      ((o.1.toList ++ r.1.1, o.1.isNone || decide (t.data ≠ restored t.data) || r.1.2), r.2)
    else
      let r := fixTasks l x
      ((t :: r.1.1, r.1.2), r.2)

/-- upgrade.go:218-225 -/
def Site.keep (x : Site) (m : Int) (ts : List Task) : Site :=
  { x with s := { x.s with sched := { x.s.sched with
    store := if ts.isEmpty then x.s.sched.store.erase m else x.s.sched.store.set m ts } } }

/-- The first loop, upgrade.go:108-227 -/
def fixMoments : List (Int × List Task) → Site → Site
  | [], x => x
  | (m, ts) :: l, x =>
    let r := fixTasks ts x
    fixMoments l (if r.1.2 then r.2.keep m r.1.1 else r.2)

/-- The second loop, upgrade.go:233-253; `none` if `ComeBack` panics.  Texts of addresses begin with "artr1" if they are in lowercase. -/
def fixRecords (e : Env) : List (Key × Info) → State → Option State
  | [], s => some s
  | (k, r) :: l, s =>
    if k ≠ text (addrOf k) then fixRecords e l { s with store := s.store.erase k }
    else if r.banished && r.active then
      match comeBack e k s with
      | (.panic, _) => none
      | (_, t) => fixRecords e l t
    else fixRecords e l s

/-- The first loop on all tasks -/
def Site.scheduled (x : Site) : Site := fixMoments x.s.sched.store.entries x

/-- `ScheduleBanishment`, upgrade.go:90-257 -/
def Site.upgrade (e : Env) (x : Site) : Option Site :=
  (fixRecords e x.scheduled.s.store.entries x.scheduled.s).map fun s => ⟨s, fun _ => none⟩

/-! ### Specification -/

/-- The tasks of a moment -/
def Site.at' (x : Site) (m : Int) : List Task := (x.s.sched.store.get m).getD []

/-- At the moment `m` the account with the name `d` is to be banished. -/
def Site.Doomed (x : Site) (d : List Nat) (m : Int) : Prop := ∃ t ∈ x.at' m, t.handler = banishHook ∧ restored t.data = d

/-- The compression of the account is to come, and the scheduler knows. -/
def Site.Squeezed (x : Site) (d : List Nat) : Prop :=
  ∃ c, (x.look d).compressionAt = some c ∧ x.s.now < c ∧ ∃ t ∈ x.at' c, t.handler = compressionHook ∧ t.data = namedBy d

/-- The account is out of business, hence its banishment is right. -/
structure Site.Idle (x : Site) (d : List Nat) : Prop where
  inactive : (x.look d).active = false
  present : (x.look d).banished = false
  poor : (x.look d).tot .delegated 0 ≤ x.s.dust
  loose : ¬ x.Squeezed d

open Classical in
/-- What shall become of a task -/
noncomputable def Site.verdict (x : Site) (t : Task) : Option Task :=
  if t.handler = banishHook then (if x.Idle (restored t.data) then some { t with data := restored t.data } else none) else some t

/-- Everything but the two dates -/
def Info.bare (v : Info) : Info := { v with banishmentAt := none, compressionAt := none }

/-! ### Proofs -/

theorem namedBy_restored (d : List Nat) : namedBy (restored d) = namedBy d := by
  unfold restored
  split
  · simp [namedBy, text, addrOf]
  · rfl

theorem expected_iff {x : Site} {c : Int} {n : List Nat} :
    expected x.s c n = true ↔ ∃ t ∈ x.at' c, t.handler = compressionHook ∧ t.data = n := by
  unfold expected Site.at'
  simp [List.any_eq_true]

@[simp] theorem save_sched (x : Site) (d : List Nat) (v : Info) : (x.save d v).s.sched = x.s.sched := by unfold Site.save; split <;> rfl
@[simp] theorem save_now (x : Site) (d : List Nat) (v : Info) : (x.save d v).s.now = x.s.now := by unfold Site.save; split <;> rfl
@[simp] theorem save_dust (x : Site) (d : List Nat) (v : Info) : (x.save d v).s.dust = x.s.dust := by unfold Site.save; split <;> rfl

theorem save_look (x : Site) (d e : List Nat) (v : Info) : (x.save d v).look e = if e = d then v else x.look e := by
  unfold Site.save
  split
  · rename_i k
    unfold Site.look
    split
    · rename_i j
      show infoOf (x.s.store.set k v) j = _
      by_cases h : j = k
      · subst h; simp [infoOf]
      · simp [infoOf, KV.get_set, h]
    · rename_i he
      rw [if_neg (by rintro rfl; exact he _ rfl)]
  · rename_i hd
    unfold Site.look
    split
    · rw [if_neg (by rintro rfl; exact hd _ rfl)]
    · dsimp only
      split <;> simp

/-- What the first loop leaves alone: everything but the two dates, and a compression to come is forgotten only if the scheduler does not
know of it. -/
structure Aligned (x y : Site) : Prop where
  now : y.s.now = x.s.now
  dust : y.s.dust = x.s.dust
  bare : ∀ d, (y.look d).bare = (x.look d).bare
  due : ∀ d, (y.look d).compressionAt = (x.look d).compressionAt ∨
    ((y.look d).compressionAt = none ∧ ∃ c, (x.look d).compressionAt = some c ∧ x.s.now < c ∧ expected x.s c (namedBy d) = false)
  known : ∀ c n, expected y.s c n = expected x.s c n

theorem Aligned.refl (x : Site) : Aligned x x := ⟨rfl, rfl, fun _ => rfl, fun _ => .inl rfl, fun _ _ => rfl⟩

theorem Aligned.trans {x y z : Site} (h : Aligned x y) (g : Aligned y z) : Aligned x z := by
  refine ⟨g.now.trans h.now, g.dust.trans h.dust, fun d => (g.bare d).trans (h.bare d), fun d => ?_, fun c n => (g.known c n).trans (h.known c n)⟩
  rcases g.due d with e | ⟨e, c, e1, e2, e3⟩
  · rw [e]; exact h.due d
  · rcases h.due d with f | ⟨f, -⟩
    · refine .inr ⟨e, c, by rw [← f, e1], by rw [← h.now]; exact e2, by rw [← h.known]; exact e3⟩
    · rw [f] at e1; cases e1

theorem Aligned.squeezed {x y : Site} (h : Aligned x y) (d : List Nat) : y.Squeezed d ↔ x.Squeezed d := by
  unfold Site.Squeezed
  simp only [← expected_iff]
  constructor
  · rintro ⟨c, h1, h2, h3⟩
    rcases h.due d with e | ⟨e, -⟩
    · exact ⟨c, by rw [← e, h1], by rw [← h.now]; exact h2, by rw [← h.known]; exact h3⟩
    · rw [e] at h1; cases h1
  · rintro ⟨c, h1, h2, h3⟩
    rcases h.due d with e | ⟨-, c', e1, -, e3⟩
    · exact ⟨c, by rw [e, h1], by rw [h.now]; exact h2, by rw [h.known]; exact h3⟩
    · rw [h1] at e1; cases e1; rw [h3] at e3; cases e3

theorem Aligned.idle {x y : Site} (h : Aligned x y) (d : List Nat) : y.Idle d ↔ x.Idle d := by
  have e1 : (y.look d).active = (x.look d).active := (congrArg Info.active (h.bare d) :)
  have e2 : (y.look d).banished = (x.look d).banished := (congrArg Info.banished (h.bare d) :)
  have e3 : (y.look d).tot = (x.look d).tot := (congrArg Info.tot (h.bare d) :)
  constructor
  · rintro ⟨a, b, c, l⟩
    exact ⟨e1 ▸ a, e2 ▸ b, by rw [← e3, ← h.dust]; exact c, fun q => l ((h.squeezed d).2 q)⟩
  · rintro ⟨a, b, c, l⟩
    exact ⟨e1 ▸ a, e2 ▸ b, by rw [e3, h.dust]; exact c, fun q => l ((h.squeezed d).1 q)⟩

theorem Aligned.verdict {x y : Site} (h : Aligned x y) : y.verdict = x.verdict := by
  funext t
  unfold Site.verdict
  by_cases q : x.Idle (restored t.data)
  · rw [if_pos q, if_pos ((h.idle _).2 q)]
  · rw [if_neg q, if_neg fun g => q ((h.idle _).1 g)]

/-- The record of an account after one of its banishments has been looked at -/
structure Judged (x : Site) (d : List Nat) (time : Int) (v : Info) : Prop where
  bare : v.bare = (x.look d).bare
  kept : x.Idle d → v.banishmentAt = some time
  cleared : ¬ x.Idle d → v.banishmentAt = none
  due : v.compressionAt = (x.look d).compressionAt ∨ v.compressionAt = none
  forgotten : v.compressionAt ≠ (x.look d).compressionAt →
    ∃ c, (x.look d).compressionAt = some c ∧ x.s.now < c ∧ expected x.s c (namedBy d) = false
  open' : ∀ c, v.compressionAt = some c → x.s.now < c → expected x.s c (namedBy d) = true

theorem ahead_found {x : Site} {d n : List Nat} (hn : n = namedBy d) :
    (((x.look d).compressionAt.any fun c => decide (x.s.now < c)) && ((x.look d).compressionAt.any fun c => expected x.s c n)) = true ↔
      x.Squeezed d := by
  subst hn
  unfold Site.Squeezed
  simp only [← expected_iff]
  cases h : (x.look d).compressionAt with
  | none => simp
  | some c => simp

theorem wrong_iff {x : Site} {d n : List Nat} (hn : n = namedBy d) :
    ((x.look d).active || (x.look d).banished ||
      (((x.look d).compressionAt.any fun c => decide (x.s.now < c)) && ((x.look d).compressionAt.any fun c => expected x.s c n)) ||
      decide (x.s.dust < (x.look d).tot .delegated 0)) = true ↔ ¬ x.Idle d := by
  rw [Bool.or_eq_true, Bool.or_eq_true, Bool.or_eq_true, ahead_found hn, decide_eq_true_eq]
  constructor
  · rintro (((h | h) | h) | h) g
    · rw [g.inactive] at h; cases h
    · rw [g.present] at h; cases h
    · exact g.loose h
    · exact absurd g.poor (by omega)
  · intro h
    by_contra g
    push Not at g
    obtain ⟨⟨⟨g1, g2⟩, g3⟩, g4⟩ := g
    exact h ⟨by simpa using g1, by simpa using g2, g4, g3⟩

theorem verdict_idle {x : Site} {t : Task} (ht : t.handler = banishHook) (h : x.Idle (restored t.data)) :
    x.verdict t = some { t with data := restored t.data } := by unfold Site.verdict; rw [if_pos ht, if_pos h]

theorem verdict_busy {x : Site} {t : Task} (ht : t.handler = banishHook) (h : ¬ x.Idle (restored t.data)) : x.verdict t = none := by
  unfold Site.verdict; rw [if_pos ht, if_neg h]

theorem verdict_other {x : Site} {t : Task} (ht : t.handler ≠ banishHook) : x.verdict t = some t := by unfold Site.verdict; rw [if_neg ht]

theorem fixTask_spec (x : Site) (t : Task) (ht : t.handler = banishHook) :
    (fixTask x t).1 = x.verdict t ∧ (fixTask x t).2.s.sched = x.s.sched ∧ (fixTask x t).2.s.now = x.s.now ∧ (fixTask x t).2.s.dust = x.s.dust ∧
      (∀ d, d ≠ restored t.data → (fixTask x t).2.look d = x.look d) ∧ Judged x (restored t.data) t.time ((fixTask x t).2.look (restored t.data)) := by
  have hn : namedBy t.data = namedBy (restored t.data) := (namedBy_restored _).symm
  have hw := wrong_iff (x := x) hn
  have hq := ahead_found (x := x) hn
  unfold fixTask
  dsimp only
  -- the record after the compression has been looked at
  generalize hcl : (((x.look (restored t.data)).compressionAt.any fun c => decide (x.s.now < c)) &&
    !((x.look (restored t.data)).compressionAt.any fun c => expected x.s c (namedBy t.data))) = cl
  have hc1 : cl = true → ∃ c, (x.look (restored t.data)).compressionAt = some c ∧ x.s.now < c ∧
      expected x.s c (namedBy (restored t.data)) = false := by
    intro h
    rw [h, hn] at hcl
    cases hc : (x.look (restored t.data)).compressionAt with
    | none => rw [hc] at hcl; simp at hcl
    | some c => rw [hc] at hcl; simp at hcl; exact ⟨c, rfl, hcl⟩
  have hc2 : cl = false → ∀ c, (x.look (restored t.data)).compressionAt = some c → x.s.now < c →
      expected x.s c (namedBy (restored t.data)) = true := by
    intro h c hc hlt
    rw [h, hn, hc] at hcl
    simpa [hlt] using hcl
  by_cases hi : x.Idle (restored t.data)
  · rw [if_neg (fun h => (hw.1 h) hi), verdict_idle ht hi]
    cases cl with
    | true =>
      obtain ⟨c, h1, h2, h3⟩ := hc1 rfl
      simp only [if_true]
      refine ⟨trivial, ?_, ?_, ?_, ?_, ?_⟩
      · split <;> simp
      · split <;> simp
      · split <;> simp
      · intro d hd; split <;> simp [save_look, hd]
      · split
        · rename_i hb
          simp only [save_look, if_true]
          exact ⟨rfl, fun _ => hb, fun h => absurd hi h, .inr rfl, fun _ => ⟨c, h1, h2, h3⟩, fun _ h => by cases h⟩
        · simp only [save_look, if_true]
          exact ⟨rfl, fun _ => rfl, fun h => absurd hi h, .inr rfl, fun _ => ⟨c, h1, h2, h3⟩, fun _ h => by cases h⟩
    | false =>
      simp only [Bool.false_eq_true, if_false]
      refine ⟨trivial, ?_, ?_, ?_, ?_, ?_⟩
      · split <;> simp
      · split <;> simp
      · split <;> simp
      · intro d hd; split <;> simp [save_look, hd]
      · split
        · rename_i hb
          exact ⟨rfl, fun _ => hb, fun h => absurd hi h, .inl rfl, fun h => absurd rfl h, hc2 rfl⟩
        · simp only [save_look, if_true]
          exact ⟨rfl, fun _ => rfl, fun h => absurd hi h, .inl rfl, fun h => absurd rfl h, hc2 rfl⟩
  · rw [if_pos (hw.2 hi), verdict_busy ht hi]
    cases cl with
    | true =>
      obtain ⟨c, h1, h2, h3⟩ := hc1 rfl
      simp only [if_true]
      refine ⟨trivial, ?_, ?_, ?_, ?_, ?_⟩
      · split <;> simp
      · split <;> simp
      · split <;> simp
      · intro d hd; split <;> simp [save_look, hd]
      · split
        · simp only [save_look, if_true]
          exact ⟨rfl, fun h => absurd h hi, fun _ => rfl, .inr rfl, fun _ => ⟨c, h1, h2, h3⟩, fun _ h => by cases h⟩
        · rename_i hb
          simp only [save_look, if_true]
          exact ⟨rfl, fun h => absurd h hi, fun _ => by simpa using hb, .inr rfl, fun _ => ⟨c, h1, h2, h3⟩, fun _ h => by cases h⟩
    | false =>
      simp only [Bool.false_eq_true, if_false]
      refine ⟨trivial, ?_, ?_, ?_, ?_, ?_⟩
      · split <;> simp
      · split <;> simp
      · split <;> simp
      · intro d hd; split <;> simp [save_look, hd]
      · split
        · simp only [save_look, if_true]
          exact ⟨rfl, fun h => absurd h hi, fun _ => rfl, .inl rfl, fun h => absurd rfl h, hc2 rfl⟩
        · rename_i hb
          exact ⟨rfl, fun h => absurd h hi, fun _ => by simpa using hb, .inl rfl, fun h => absurd rfl h, hc2 rfl⟩

theorem fixTask_alike (x : Site) (t : Task) (ht : t.handler = banishHook) : Aligned x (fixTask x t).2 := by
  obtain ⟨-, h2, h3, h4, h5, h6⟩ := fixTask_spec x t ht
  refine ⟨h3, h4, fun d => ?_, fun d => ?_, fun c n => by unfold expected; rw [h2]⟩
  · by_cases hd : d = restored t.data
    · rw [hd]; exact h6.bare
    · rw [h5 d hd]
  · by_cases hd : d = restored t.data
    · rw [hd]
      by_cases hc : ((fixTask x t).2.look (restored t.data)).compressionAt = (x.look (restored t.data)).compressionAt
      · exact .inl hc
      · exact .inr ⟨(h6.due.resolve_left hc), h6.forgotten hc⟩
    · rw [h5 d hd]; exact .inl rfl

theorem Judged.alike {x y : Site} (h : Aligned x y) {d : List Nat} {m : Int} {v : Info} (j : Judged y d m v) : Judged x d m v := by
  refine ⟨j.bare.trans (h.bare d), fun q => j.kept ((h.idle d).2 q), fun q => j.cleared fun g => q ((h.idle d).1 g), ?_, fun q => ?_, fun c e f => ?_⟩
  · rcases j.due with e | e
    · rcases h.due d with f | ⟨f, -⟩
      · exact .inl (e.trans f)
      · exact .inr (e.trans f)
    · exact .inr e
  · by_cases e : v.compressionAt = (y.look d).compressionAt
    · rcases h.due d with f | ⟨-, f⟩
      · exact absurd (e.trans f) q
      · exact f
    · obtain ⟨c, e1, e2, e3⟩ := j.forgotten e
      rcases h.due d with f | ⟨f, -⟩
      · exact ⟨c, by rw [← f, e1], by rw [← h.now]; exact e2, by rw [← h.known]; exact e3⟩
      · rw [f] at e1; cases e1
  · rw [← h.known]; exact j.open' c e (by rw [h.now]; exact f)

/-- The list names the account in a banishment. -/
def Names (l : List Task) (d : List Nat) : Prop := ∃ t ∈ l, t.handler = banishHook ∧ restored t.data = d

theorem fixTasks_spec (l : List Task) : ∀ x : Site,
    (fixTasks l x).1.1 = l.filterMap x.verdict ∧ ((fixTasks l x).1.2 = false → (fixTasks l x).1.1 = l) ∧ (fixTasks l x).2.s.sched = x.s.sched ∧
      Aligned x (fixTasks l x).2 ∧ (∀ d, ¬ Names l d → (fixTasks l x).2.look d = x.look d) ∧
      ∀ m, (∀ t ∈ l, t.time = m) → ∀ d, Names l d → Judged x d m ((fixTasks l x).2.look d) := by
  induction l with
  | nil => exact fun x => ⟨rfl, fun _ => rfl, rfl, .refl x, fun _ _ => rfl, fun m _ d ⟨t, h, _⟩ => by cases h⟩
  | cons t l ih =>
    intro x
    unfold fixTasks
    by_cases ht : t.handler = banishHook
    · rw [if_pos ht]
      dsimp only
      obtain ⟨a1, a2, a3, a4, a5, a6⟩ := ih (fixTask x t).2
      obtain ⟨b1, b2, b3, b4, b5, b6⟩ := fixTask_spec x t ht
      have al := fixTask_alike x t ht
      refine ⟨?_, ?_, a3.trans b2, al.trans a4, ?_, ?_⟩
      · rw [a1, b1, al.verdict]
        cases h : x.verdict t <;> simp [h]
      · intro h
        simp only [Bool.or_eq_false_iff, decide_eq_false_iff_not, not_not] at h
        obtain ⟨⟨h1, h2⟩, h3⟩ := h
        rw [a2 h3]
        by_cases hi : x.Idle (restored t.data)
        · rw [b1, verdict_idle ht hi, ← h2]; rfl
        · rw [b1, verdict_busy ht hi] at h1; cases h1
      · intro d hd
        have h1 : d ≠ restored t.data := fun e => hd ⟨t, List.mem_cons_self, ht, e.symm⟩
        rw [a5 d fun ⟨u, hu, e⟩ => hd ⟨u, List.mem_cons_of_mem _ hu, e⟩, b5 d h1]
      · intro m hm d hd
        by_cases hl : Names l d
        · exact (a6 m (fun u hu => hm u (List.mem_cons_of_mem _ hu)) d hl).alike al
        · rw [a5 d hl]
          obtain ⟨u, hu, e1, e2⟩ := hd
          rcases List.mem_cons.1 hu with rfl | hu
          · subst e2
            rw [← hm u List.mem_cons_self]; exact b6
          · exact absurd ⟨u, hu, e1, e2⟩ hl
    · rw [if_neg ht]
      dsimp only
      obtain ⟨a1, a2, a3, a4, a5, a6⟩ := ih x
      refine ⟨by rw [a1, List.filterMap_cons, verdict_other ht], fun h => by rw [a2 h], a3, a4, ?_, ?_⟩
      · exact fun d hd => a5 d fun ⟨u, hu, e⟩ => hd ⟨u, List.mem_cons_of_mem _ hu, e⟩
      · intro m hm d ⟨u, hu, e1, e2⟩
        rcases List.mem_cons.1 hu with rfl | hu
        · exact absurd e1 ht
        · exact a6 m (fun u hu => hm u (List.mem_cons_of_mem _ hu)) d ⟨u, hu, e1, e2⟩

theorem keep_at (x : Site) (m j : Int) (ts : List Task) : (x.keep m ts).at' j = if j = m then ts else x.at' j := by
  unfold Site.at' Site.keep
  dsimp only
  cases ts with
  | nil => by_cases h : j = m <;> simp [KV.get_erase, h]
  | cons t l => by_cases h : j = m <;> simp [KV.get_set, h]

theorem filterMap_verdict_any (x : Site) (l : List Task) (n : List Nat) :
    ((l.filterMap x.verdict).any fun t => t.handler == compressionHook && t.data == n) =
      l.any fun t => t.handler == compressionHook && t.data == n := by
  induction l with
  | nil => rfl
  | cons t l ih =>
    by_cases ht : t.handler = banishHook
    · have h9 : ∀ d : List Nat, (banishHook == compressionHook && d == n) = false := fun _ => rfl
      by_cases hi : x.Idle (restored t.data)
      · rw [List.filterMap_cons, verdict_idle ht hi]
        simp only [List.any_cons, ih, ht, h9]
      · rw [List.filterMap_cons, verdict_busy ht hi]
        simp only [List.any_cons, ih, ht, h9, Bool.false_or]
    · rw [List.filterMap_cons, verdict_other ht]
      simp only [List.any_cons, ih]

/-- One moment -/
theorem moment_spec (x : Site) (m : Int) (ts : List Task) (hx : x.at' m = ts) :
    let y := (if (fixTasks ts x).1.2 then (fixTasks ts x).2.keep m (fixTasks ts x).1.1 else (fixTasks ts x).2);
    Aligned x y ∧ (∀ j, y.at' j = if j = m then ts.filterMap x.verdict else x.at' j) ∧ (∀ j, j ≠ m → y.s.sched.store.get j = x.s.sched.store.get j) ∧
      (∀ d, ¬ Names ts d → y.look d = x.look d) ∧ ((∀ t ∈ ts, t.time = m) → ∀ d, Names ts d → Judged x d m (y.look d)) := by
  intro y
  obtain ⟨a1, a2, a3, a4, a5, a6⟩ := fixTasks_spec ts x
  have hat : ∀ j, y.at' j = if j = m then ts.filterMap x.verdict else x.at' j := by
    intro j
    unfold y
    split
    · rw [keep_at, a1]
      congr 1
      unfold Site.at'; rw [a3]
    · rename_i h
      have h : (fixTasks ts x).1.2 = false := by simpa using h
      have e : (fixTasks ts x).2.at' j = x.at' j := by unfold Site.at'; rw [a3]
      rw [e, ← a1, a2 h]
      split
      · rename_i hj; rw [hj, hx]
      · rfl
  have hlook : ∀ d, y.look d = (fixTasks ts x).2.look d := by
    intro d; unfold y; split <;> rfl
  refine ⟨⟨?_, ?_, fun d => by rw [hlook]; exact a4.bare d, fun d => by rw [hlook]; exact a4.due d, fun c n => ?_⟩, hat, ?_,
    fun d hd => by rw [hlook]; exact a5 d hd, fun hm d hd => by rw [hlook]; exact a6 m hm d hd⟩
  · rw [← a4.now]; unfold y; split <;> rfl
  · rw [← a4.dust]; unfold y; split <;> rfl
  · show (y.at' c).any _ = (x.at' c).any _
    rw [hat]
    split
    · rename_i hj; rw [hj, hx, filterMap_verdict_any]
    · rfl
  · intro j hj
    unfold y
    split
    · unfold Site.keep
      dsimp only
      split
      · rw [KV.get_erase, if_neg hj, a3]
      · rw [KV.get_set, if_neg hj, a3]
    · rw [a3]

theorem fixMoments_spec (L : List (Int × List Task)) : ∀ x : Site, L.Pairwise (fun a b => a.1 < b.1) → (∀ p ∈ L, x.s.sched.store.get p.1 = some p.2) →
    Aligned x (fixMoments L x) ∧
      (∀ j, (fixMoments L x).at' j = if j ∈ L.map Prod.fst then (x.at' j).filterMap x.verdict else x.at' j) ∧
      (∀ d, (∀ p ∈ L, ¬ Names p.2 d) → (fixMoments L x).look d = x.look d) ∧
      ((∀ p ∈ L, ∀ t ∈ p.2, t.time = p.1) → ∀ d, ∀ p ∈ L, Names p.2 d → (∀ q ∈ L, Names q.2 d → q.1 ≤ p.1) → Judged x d p.1 ((fixMoments L x).look d)) := by
  induction L with
  | nil => exact fun x _ _ => ⟨.refl x, fun _ => rfl, fun _ _ => rfl, fun _ _ p hp => by cases hp⟩
  | cons p L ih =>
    obtain ⟨m, ts⟩ := p
    intro x hs hx
    have hm : x.s.sched.store.get m = some ts := hx (m, ts) List.mem_cons_self
    have hat : x.at' m = ts := by unfold Site.at'; rw [hm]; rfl
    rw [List.pairwise_cons] at hs
    obtain ⟨b1, b2, b3, b4, b5⟩ := moment_spec x m ts hat
    unfold fixMoments
    dsimp only
    generalize (if (fixTasks ts x).1.2 then (fixTasks ts x).2.keep m (fixTasks ts x).1.1 else (fixTasks ts x).2) = y at b1 b2 b3 b4 b5 ⊢
    have hne : ∀ q ∈ L, q.1 ≠ m := fun q hq => by have := hs.1 q hq; dsimp only at this; omega
    obtain ⟨a1, a2, a3, a4⟩ := ih y hs.2 fun q hq => by rw [b3 _ (hne q hq)]; exact hx q (List.mem_cons_of_mem _ hq)
    refine ⟨b1.trans a1, fun j => ?_, fun d hd => ?_, fun ht d p hp hn hl => ?_⟩
    · rw [a2, b1.verdict, b2]
      by_cases hj : j = m
      · subst hj
        rw [if_neg (fun h => by obtain ⟨q, hq, e⟩ := List.mem_map.1 h; exact hne q hq e), if_pos rfl, if_pos (by simp), hat]
      · rw [if_neg hj]
        by_cases hL : j ∈ L.map Prod.fst
        · rw [if_pos hL, if_pos (show j ∈ ((m, ts) :: L).map Prod.fst from List.mem_cons_of_mem _ hL)]
        · rw [if_neg hL, if_neg fun h : j ∈ ((m, ts) :: L).map Prod.fst => (List.mem_cons.1 h).elim hj hL]
    · rw [a3 d fun q hq => hd q (List.mem_cons_of_mem _ hq), b4 d (hd _ List.mem_cons_self)]
    · have ht' : ∀ q ∈ L, ∀ t ∈ q.2, t.time = q.1 := fun q hq => ht q (List.mem_cons_of_mem _ hq)
      rcases List.mem_cons.1 hp with rfl | hp'
      · have none' : ∀ q ∈ L, ¬ Names q.2 d := fun q hq hn' => by
          have h1 := hl q (List.mem_cons_of_mem _ hq) hn'
          have h2 := hs.1 q hq
          dsimp only at h1 h2
          omega
        rw [a3 d none']
        exact b5 (ht _ List.mem_cons_self) d hn
      · exact (a4 ht' d p hp' hn fun q hq => hl q (List.mem_cons_of_mem _ hq)).alike b1

end Verif.Referral
