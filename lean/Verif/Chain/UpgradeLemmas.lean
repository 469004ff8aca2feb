import Verif.Chain.Upgrade

/-! What one round of `ForceGlobalDelegation` does. -/
namespace Verif.Upgrade
open Verif.Util Verif.Bank Verif.Delegating

/-- All coins of the account are delegated ones. -/
def merged (c : Coins) : Coins := ⟨0, c.delegated + c.main + c.revoking, 0, c.other⟩

/-- The record belongs to an account whose coins the upgrade converts. -/
def Moves (r : Referral.Info) : Prop := r.banished = false ∧ r.tot .coins 0 ≠ r.tot .delegated 0

theorem balance_setRaw (b : Bank.State) (a x : Nat) (c : Coins) : balance (setRaw b a c) x = if x = a then c else balance b x := by
  unfold balance setRaw
  simp only [KV.get_set]
  split <;> rfl

theorem total_setRaw (b : Bank.State) (a : Nat) (c : Coins) (d : Denom) :
    total (setRaw b a c) d = total b d - (balance b a).amt d + c.amt d := by
  have hp : KV.part (fun (_ : Nat) (c : Coins) => c.amt d) a (b.balances.get a) = (balance b a).amt d := by
    unfold balance
    cases b.balances.get a <;> simp
  unfold total setRaw
  simp only
  rw [KV.sum_set, hp]

/-- What happened to the schedule: nothing to tasks other than the ones named. -/
structure Kept (P : Schedule.Task → Prop) (s t : Schedule.State) : Prop where
  inv : Schedule.Inv s → Schedule.Inv t
  keep : ∀ x, ¬ P x → Schedule.Pending s x → Schedule.Pending t x

theorem Kept.refl {P : Schedule.Task → Prop} (s : Schedule.State) : Kept P s s := ⟨id, fun _ _ h => h⟩

theorem Kept.trans {P : Schedule.Task → Prop} {a b c : Schedule.State} (h : Kept P a b) (g : Kept P b c) : Kept P a c :=
  ⟨fun hi => g.inv (h.inv hi), fun x hx hp => g.keep x hx (h.keep x hx hp)⟩

theorem Kept.mono {P Q : Schedule.Task → Prop} {a b : Schedule.State} (h : Kept P a b) (hq : ∀ x, P x → Q x) : Kept Q a b :=
  ⟨h.inv, fun x hx hp => h.keep x (fun hh => hx (hq x hh)) hp⟩

theorem kept_delete {T : Int} {hd : Nat} {d : List Nat} {s t : Schedule.State} (h : (Schedule.Req.delete T hd d).exec? s = some t) :
    Kept (fun x => x.handler = hd ∧ x.data = d) s t :=
  ⟨Schedule.exec?_inv h, fun x hx hp => Schedule.exec?_pending h hp fun hh => hx ⟨hh.2.1.symm, hh.2.2.symm⟩⟩

theorem kept_schedule {T : Int} {hd : Nat} {d : List Nat} {s t : Schedule.State} (h : (Schedule.Req.schedule T hd d).exec? s = some t) :
    Kept (fun _ => False) s t ∧ ∃ id, Schedule.Pending t ⟨T, hd, d, id⟩ := by
  refine ⟨⟨Schedule.exec?_inv h, fun x _ hp => Schedule.exec?_pending h hp (by simp [Schedule.Req.Spares])⟩, s.next, ?_⟩
  obtain ⟨_, _, h3⟩ := Schedule.schedule?_spec h
  exact ⟨_, by rw [h3, KV.get_set_self], by simp⟩

theorem kept_dropTasks {a : Nat} {l : List Request} {s t : Schedule.State} (h : dropTasks? a l s = some t) :
    Kept (fun x => x.handler = revokeHook ∧ x.data = [a]) s t := by
  induction l generalizing s with
  | nil => injection h with h; subst h; exact .refl _
  | cons r l ih =>
    unfold dropTasks? at h
    simp only [Option.bind_eq_bind, Option.bind_eq_some_iff] at h
    obtain ⟨u, h1, h2⟩ := h
    exact (kept_delete h1).trans (ih h2)

/-- The next accrual of an account whose coins are converted. -/
inductive Next (plan day dust : Int) (dq : Frac) (v w : Vars) (a : Nat) (total joined : Int) : Prop
  | running (next : Int) (p : Frac) : ((v.records.get a).getD {}).nextAccrue = some next →
      (sdkInt64? total).isSome → Frac.mul? ⟨wrap64 joined, total⟩ ⟨plan - (next - day), day⟩ = some p →
      w.records = v.records.set a ⟨some next, [], some p⟩ → w.t = v.t → w.q = v.q → Next plan day dust dq v w a total joined
  | starts (q : Frac) : ((v.records.get a).getD {}).nextAccrue = none → dust < total → v.q.add? dq = some q →
      w.records = v.records.set a ⟨some (v.t - second), [], some q⟩ → w.t = v.t - second → w.q = q →
      (∃ id, Schedule.Pending w.sched ⟨v.t - second, accrueHook, [a], id⟩) → Next plan day dust dq v w a total joined
  | dust : ((v.records.get a).getD {}).nextAccrue = none → total ≤ dust →
      w.records = (if ((v.records.get a).getD {}).requests.isEmpty then v.records else v.records.erase a) →
      w.t = v.t → w.q = v.q → Next plan day dust dq v w a total joined

/-- One round for an account whose coins are converted. -/
structure Round (plan day dust : Int) (dq : Frac) (k : Nat) (r : Referral.Info) (v w : Vars) : Prop where
  main0 : 0 ≤ (balance v.bank (Referral.addrOf k)).main
  rev0 : 0 ≤ (balance v.bank (Referral.addrOf k)).revoking
  bank : w.bank = setRaw v.bank (Referral.addrOf k) (merged (balance v.bank (Referral.addrOf k)))
  dMain : w.dMain = v.dMain + (balance v.bank (Referral.addrOf k)).main
  dRevoke : w.dRevoke = v.dRevoke + (balance v.bank (Referral.addrOf k)).revoking
  sched : Kept (fun x => (x.handler = revokeHook ∧ x.data = [Referral.addrOf k]) ∨
    (x.handler = Referral.banishHook ∧ x.data = [k])) v.sched w.sched
  next : Next plan day dust dq v w (Referral.addrOf k) (merged (balance v.bank (Referral.addrOf k))).delegated
    ((balance v.bank (Referral.addrOf k)).main + (balance v.bank (Referral.addrOf k)).revoking)
  ref : w.ref = v.ref.set k (if ((v.records.get (Referral.addrOf k)).getD {}).nextAccrue = none ∧
      dust < (merged (balance v.bank (Referral.addrOf k))).delegated
    then { delegateAll r with banishmentAt := none } else delegateAll r)

theorem forceOne_still {plan day dust : Int} {dq : Frac} {v w : Vars} {x : Nat × Referral.Info}
    (h : forceOne? plan day dust dq v x = some w) (hx : ¬ Moves x.2) :
    w = { v with ref := if x.2.banished then v.ref else v.ref.set x.1 (delegateAll x.2) } := by
  unfold forceOne? at h
  simp only at h
  split at h
  · next hb => injection h with h; subst h; simp [hb]
  · next hb =>
    rw [if_pos (by
      by_contra hh
      exact hx ⟨by simpa using hb, hh⟩)] at h
    injection h with h; subst h; simp [hb]

theorem forceOne_moves {plan day dust : Int} {dq : Frac} {v w : Vars} {k : Nat} {r : Referral.Info}
    (h : forceOne? plan day dust dq v (k, r) = some w) (hx : Moves r) : Round plan day dust dq k r v w := by
  unfold forceOne? at h
  simp only at h
  rw [if_neg (by simp [hx.1]), if_neg hx.2] at h
  split at h
  · cases h
  next hneg =>
  simp only [not_or, not_lt] at hneg
  rw [Option.bind_eq_some_iff] at h
  obtain ⟨sched, h1, h⟩ := h
  have hk1 := kept_dropTasks h1
  split at h
  · next next hn =>
    simp only [Option.bind_eq_some_iff] at h
    obtain ⟨m, e1, w', e2, d, e3, p, e4, h⟩ := h
    injection h with h
    subst h
    have f1 : m = (balance v.bank (Referral.addrOf k)).main := by
      unfold sdkInt64? at e1; split at e1
      · injection e1 with e1; exact e1.symm
      · cases e1
    have f2 : w' = (balance v.bank (Referral.addrOf k)).revoking := by
      unfold sdkInt64? at e2; split at e2
      · injection e2 with e2; exact e2.symm
      · cases e2
    have f3 : d = (merged (balance v.bank (Referral.addrOf k))).delegated := by
      unfold sdkInt64? at e3; split at e3
      · injection e3 with e3; exact e3.symm
      · cases e3
    refine ⟨hneg.1, hneg.2, rfl, rfl, rfl, hk1.mono fun x hx => .inl hx, .running next p hn ?_ ?_ rfl rfl rfl, ?_⟩
    · show (sdkInt64? ((balance v.bank (Referral.addrOf k)).delegated + (balance v.bank (Referral.addrOf k)).main +
        (balance v.bank (Referral.addrOf k)).revoking)).isSome
      rw [e3]; rfl
    · rw [← f1, ← f2, ← f3]; exact e4
    · simp [hn]
  · next hn =>
    simp only [Option.bind_eq_some_iff] at h
    obtain ⟨d, e3, h⟩ := h
    have f3 : d = (merged (balance v.bank (Referral.addrOf k))).delegated := by
      unfold sdkInt64? at e3; split at e3
      · injection e3 with e3; exact e3.symm
      · cases e3
    split at h
    · next hd =>
      simp only [Option.bind_eq_some_iff] at h
      obtain ⟨q, e4, s1, e5, s2, e6, h⟩ := h
      injection h with h
      subst h
      obtain ⟨k2, id, hp⟩ := kept_schedule e5
      have k3 : Kept (fun x => x.handler = Referral.banishHook ∧ x.data = [k]) s1 s2 := by
        split at e6
        · exact kept_delete e6
        · injection e6 with e6; subst e6; exact .refl _
      refine ⟨hneg.1, hneg.2, rfl, rfl, rfl, ((hk1.mono fun x hx => .inl hx).trans (k2.mono fun x hx => hx.elim)).trans
        (k3.mono fun x hx => .inr hx), .starts q hn (by rw [← f3]; exact hd) e4 rfl rfl rfl ⟨id, k3.keep _ ?_ hp⟩, ?_⟩
      · rintro ⟨h1, -⟩
        simp only at h1
        exact absurd h1 (by decide)
      · rw [if_pos ⟨hn, by rw [← f3]; exact hd⟩]
    · next hd =>
      injection h with h
      subst h
      exact ⟨hneg.1, hneg.2, rfl, rfl, rfl, hk1.mono fun x hx => .inl hx, .dust hn (by rw [← f3]; exact not_lt.1 hd) rfl rfl rfl,
        congrArg (v.ref.set k) (if_neg (by rw [← f3]; exact fun hh => hd hh.2)).symm⟩

/-! ### The loop -/

/-- Some record in the list makes the upgrade convert the coins of account `a`. -/
def Joined (l : List (Nat × Referral.Info)) (a : Nat) : Prop := ∃ x ∈ l, Referral.addrOf x.1 = a ∧ Moves x.2

def recOf (v : Vars) (a : Nat) : Record := (v.records.get a).getD {}

theorem Next.other {plan day dust : Int} {dq : Frac} {v w : Vars} {a : Nat} {total joined : Int}
    (h : Next plan day dust dq v w a total joined) {x : Nat} (hx : x ≠ a) : recOf w x = recOf v x := by
  unfold recOf
  cases h with
  | running _ _ _ _ _ h => rw [h, KV.get_set_ne _ _ hx]
  | starts _ _ _ _ h => rw [h, KV.get_set_ne _ _ hx]
  | dust _ _ h =>
    rw [h]
    split
    · rfl
    · rw [KV.get_erase_ne _ hx]

theorem Next.requests {plan day dust : Int} {dq : Frac} {v w : Vars} {a : Nat} {total joined : Int}
    (h : Next plan day dust dq v w a total joined) : (recOf w a).requests = [] := by
  unfold recOf
  cases h with
  | running _ _ _ _ _ h => rw [h, KV.get_set_self]; rfl
  | starts _ _ _ _ h => rw [h, KV.get_set_self]; rfl
  | dust _ _ h =>
    rw [h]
    split
    · next he => simpa using he
    · rw [KV.get_erase_self]; rfl

/-- What the loop does to money, requests and tasks. -/
structure Sweep (l : List (Nat × Referral.Info)) (v w : Vars) : Prop where
  joined : ∀ a, Joined l a → balance w.bank a = merged (balance v.bank a) ∧ (recOf w a).requests = []
  other : ∀ a, ¬ Joined l a → balance w.bank a = balance v.bank a ∧ recOf w a = recOf v a
  params : w.bank.params = v.bank.params
  supply : w.bank.supply = v.bank.supply
  main0 : v.dMain ≤ w.dMain
  rev0 : v.dRevoke ≤ w.dRevoke
  main : total w.bank .main = total v.bank .main - (w.dMain - v.dMain)
  revoking : total w.bank .revoking = total v.bank .revoking - (w.dRevoke - v.dRevoke)
  delegated : total w.bank .delegated = total v.bank .delegated + (w.dMain - v.dMain) + (w.dRevoke - v.dRevoke)
  others : total w.bank .other = total v.bank .other
  sched : Kept (fun x => (x.handler = revokeHook ∧ ∃ a, Joined l a ∧ x.data = [a]) ∨ x.handler = Referral.banishHook) v.sched w.sched

theorem merged_merged (c : Coins) : merged (merged c) = merged c := by simp [merged]

theorem forceLoop_sweep {plan day dust : Int} {dq : Frac} {l : List (Nat × Referral.Info)} {v w : Vars}
    (h : forceLoop? plan day dust dq l v = some w) : Sweep l v w := by
  induction l generalizing v with
  | nil =>
    injection h with h
    subst h
    exact ⟨fun a ⟨x, hx, _⟩ => absurd hx (by simp), fun _ _ => ⟨rfl, rfl⟩, rfl, rfl, le_rfl, le_rfl, by omega, by omega, by omega, rfl,
      .refl _⟩
  | cons x l ih =>
    unfold forceLoop? at h
    rw [Option.bind_eq_some_iff] at h
    obtain ⟨u, h1, h2⟩ := h
    have g := ih h2
    by_cases hm : Moves x.2
    · obtain ⟨k, r⟩ := x
      have hr := forceOne_moves h1 hm
      generalize ha : Referral.addrOf k = a0 at hr
      have hj : Joined ((k, r) :: l) a0 := ⟨(k, r), by simp, ha, hm⟩
      have bal : ∀ a, balance u.bank a = if a = a0 then merged (balance v.bank a) else balance v.bank a := by
        intro a
        have := hr.bank
        rw [ha] at this
        rw [this, balance_setRaw]
        split
        · next hh => rw [hh]
        · rfl
      have tot : ∀ d, total u.bank d = total v.bank d - (balance v.bank a0).amt d + (merged (balance v.bank a0)).amt d := by
        intro d
        have := hr.bank
        rw [ha] at this
        rw [this, total_setRaw]
      have e1 := hr.dMain; have e2 := hr.dRevoke; have e3 := hr.main0; have e4 := hr.rev0
      have hn := hr.next
      rw [ha] at e1 e2 e3 e4 hn
      have m1 := tot .main; have m2 := tot .revoking; have m3 := tot .delegated; have m4 := tot .other
      simp only [Coins.amt, merged] at m1 m2 m3 m4
      have g1 := g.main0; have g2 := g.rev0; have g3 := g.main; have g4 := g.revoking; have g5 := g.delegated; have g6 := g.others
      refine ⟨?_, ?_, ?_, ?_, by omega, by omega, by omega, by omega, by omega, by omega, ?_⟩
      · intro a haj
        by_cases hjl : Joined l a
        · obtain ⟨k1, k2⟩ := g.joined a hjl
          refine ⟨?_, k2⟩
          rw [k1, bal]
          split
          · rw [merged_merged]
          · rfl
        · obtain ⟨k1, k2⟩ := g.other a hjl
          have : a = a0 := by
            obtain ⟨y, hy, hya, hym⟩ := haj
            rcases List.mem_cons.1 hy with rfl | hy
            · rw [← hya]; exact ha
            · exact absurd ⟨y, hy, hya, hym⟩ hjl
          subst this
          rw [k1, k2, bal, if_pos rfl]
          exact ⟨rfl, hn.requests⟩
      · intro a haj
        have hjl : ¬ Joined l a := fun ⟨y, hy, hh⟩ => haj ⟨y, List.mem_cons_of_mem _ hy, hh⟩
        have hne : a ≠ a0 := fun hh => haj (hh ▸ hj)
        obtain ⟨k1, k2⟩ := g.other a hjl
        rw [k1, k2, bal, if_neg hne]
        exact ⟨rfl, hn.other hne⟩
      · rw [g.params, hr.bank]; rfl
      · rw [g.supply, hr.bank]; rfl
      · refine (hr.sched.mono ?_).trans (g.sched.mono ?_)
        · rintro t (⟨h1, h2⟩ | ⟨h1, -⟩)
          · exact .inl ⟨h1, a0, hj, by rw [h2, ha]⟩
          · exact .inr h1
        · rintro t (⟨h1, a, ⟨y, hy, hh⟩, h2⟩ | h1)
          · exact .inl ⟨h1, a, ⟨y, List.mem_cons_of_mem _ hy, hh⟩, h2⟩
          · exact .inr h1
    · have hu := forceOne_still h1 hm
      have hiff : ∀ a, Joined (x :: l) a ↔ Joined l a := by
        intro a
        constructor
        · rintro ⟨y, hy, hya, hym⟩
          rcases List.mem_cons.1 hy with rfl | hy
          · exact absurd hym hm
          · exact ⟨y, hy, hya, hym⟩
        · rintro ⟨y, hy, hh⟩
          exact ⟨y, List.mem_cons_of_mem _ hy, hh⟩
      have hb : u.bank = v.bank := by rw [hu]
      have hrec : ∀ a, recOf u a = recOf v a := by intro a; rw [hu]; rfl
      have hs : u.sched = v.sched := by rw [hu]
      have h3 : u.dMain = v.dMain := by rw [hu]
      have h4 : u.dRevoke = v.dRevoke := by rw [hu]
      refine ⟨?_, ?_, hb ▸ g.params, hb ▸ g.supply, h3 ▸ g.main0, h4 ▸ g.rev0, ?_, ?_, ?_, hb ▸ g.others, ?_⟩
      · intro a haj
        have := g.joined a ((hiff a).1 haj)
        rwa [hb] at this
      · intro a haj
        have := g.other a (fun hh => haj ((hiff a).2 hh))
        rwa [hb, hrec] at this
      · have := g.main; rwa [hb, h3] at this
      · have := g.revoking; rwa [hb, h4] at this
      · have := g.delegated; rwa [hb, h3, h4] at this
      · have := g.sched
        rw [hs] at this
        exact this.mono (by
          rintro t (⟨h1, a, hh, h2⟩ | h1)
          · exact .inl ⟨h1, a, (hiff a).2 hh, h2⟩
          · exact .inr h1)

end Verif.Upgrade
