import Verif.Referral.Effects
import Verif.Referral.Tree

/-! The effect of the operations on the view of the store, continued. -/
namespace Verif.Referral
open Relation

def treeOf (I : View) : Tree := ⟨fun k => (I k).referrer, fun k => (I k).referrals, fun k => (I k).banished⟩

theorem money_neg_zero (w : What) : money (-0) (-0) w = 0 := by cases w <;> rfl

theorem bump_ge {d : What → Int} {L : Info → Info} {l : Nat} (h : 2 ≤ l) : bump d L l = fun v => v.add d l := by
  funext v; unfold bump; rw [if_neg (by omega)]

theorem core_bump (d : What → Int) (l : Nat) (v : Info) : core (v.add d l) = (core v).add d l := rfl

/-! ### Attaching and detaching -/

theorem Framed.attach (k : Key) (c d : Int) (p : Option Key) : Framed (attach k c d p) := by
  cases p with
  | none => exact (Still.pure _).framed
  | some p =>
    refine .bind (.update fun v => (Still.pure _).framed) fun next => .ite (Still.pure _).framed (.climb (fun _ _ _ => (Still.pure _).framed) _ _ _)

theorem attach_ok {k : Key} {c d : Int} {p : Option Key} {s t : State} (h : attach k c d p s = (.ok (), t)) :
    view t.work = climbV (bump (money c d) (addKid k)) 10 1 p (view s.work) := by
  cases p with
  | none =>
    simp [attach] at h
    rw [h]; rfl
  | some p =>
    unfold attach at h
    rw [M.bind_ok_iff] at h
    obtain ⟨next, s1, h1, h⟩ := h
    obtain ⟨w, s2, h2, hfr, hv, -⟩ := update_ok h1
    simp at h2
    obtain ⟨⟨rfl, rfl⟩, rfl⟩ := h2
    have e : climbV (bump (money c d) (addKid k)) 10 1 (some p) (view s.work) =
        climbV (fun l v => v.add (money c d) l) 9 2 (infoOf s.work p).referrer (view s1.work) := by
      rw [hv]
      show climbV _ 9 2 _ _ = _
      rw [climbV_congr (g' := fun l v => v.add (money c d) l) 9 2 _ _ fun l hl => bump_ge hl]
      rfl
    rw [e]
    split at h
    · rename_i hz
      simp at h
      rw [climbV_id _ _ _ _ (fun l v _ => add_zero v _ l (by rw [hz.1, hz.2]; exact money_zero)), h]
    · exact (climb_ok (g := fun l v => v.add (money c d) l) (by
        intro l a v s' w t h
        simp at h
        obtain ⟨rfl, rfl⟩ := h
        exact ⟨.refl _, rfl⟩) _ _ _ _ _ h).2

theorem Framed.detach (k : Key) (c d : Int) (p : Option Key) : Framed (detach k c d p) := by
  cases p with
  | none => exact (Still.pure _).framed
  | some p =>
    refine .bind (.update fun v => (Still.pure _).framed) fun next => .ite (Still.pure _).framed (.climb (fun _ _ _ => (Still.pure _).framed) _ _ _)

theorem detach_ok {k : Key} {c d : Int} {p : Option Key} {s t : State} (h : detach k c d p s = (.ok (), t)) :
    view t.work = climbV (bump (money (-c) (-d)) (dropKid k)) 10 1 p (view s.work) := by
  cases p with
  | none =>
    simp [detach] at h
    rw [h]; rfl
  | some p =>
    unfold detach at h
    rw [M.bind_ok_iff] at h
    obtain ⟨next, s1, h1, h⟩ := h
    obtain ⟨w, s2, h2, hfr, hv, -⟩ := update_ok h1
    simp at h2
    obtain ⟨⟨rfl, rfl⟩, rfl⟩ := h2
    have e : climbV (bump (money (-c) (-d)) (dropKid k)) 10 1 (some p) (view s.work) =
        climbV (fun l v => v.add (money (-c) (-d)) l) 9 2 (infoOf s.work p).referrer (view s1.work) := by
      rw [hv]
      show climbV _ 9 2 _ _ = _
      rw [climbV_congr (g' := fun l v => v.add (money (-c) (-d)) l) 9 2 _ _ fun l hl => bump_ge hl]
      rfl
    rw [e]
    split at h
    · rename_i hz
      simp at h
      rw [climbV_id _ _ _ _ (fun l v _ => add_zero v _ l (by rw [hz.1, hz.2]; exact money_neg_zero)), h]
    · exact (climb_ok (g := fun l v => v.add (money (-c) (-d)) l) (by
        intro l a v s' w t h
        simp at h
        obtain ⟨rfl, rfl⟩ := h
        exact ⟨.refl _, rfl⟩) _ _ _ _ _ h).2

theorem openAncestor_spec {st : KV Nat Info} {now month : Int} : ∀ (n : Nat) (x p : Key),
    openAncestor st now month n (some x) = some (some p) →
      ReflTransGen (treeOf (view st)).over p x ∧ (infoOf st p).closed now month = false := by
  intro n
  induction n with
  | zero => intro x p h; simp [openAncestor] at h
  | succ n ih =>
    intro x p h
    unfold openAncestor at h
    split at h
    · cases hr : (infoOf st x).referrer with
      | none => rw [hr] at h; simp [openAncestor] at h
      | some y =>
        rw [hr] at h
        obtain ⟨h1, h2⟩ := ih y p h
        exact ⟨h1.tail hr, h2⟩
    · rename_i hc
      simp at h
      subst h
      exact ⟨.refl, by simpa using hc⟩

/-- From the referrer of `k` upwards -/
theorem openAncestor_trans {st : KV Nat Info} {now month : Int} {n : Nat} {k p : Key}
    (h : openAncestor st now month n (infoOf st k).referrer = some (some p)) :
    TransGen (treeOf (view st)).over p k ∧ (infoOf st p).closed now month = false := by
  cases hr : (infoOf st k).referrer with
  | none => rw [hr] at h; cases n <;> simp [openAncestor] at h
  | some x =>
    rw [hr] at h
    obtain ⟨h1, h2⟩ := openAncestor_spec n x p h
    exact ⟨TransGen.tail' h1 hr, h2⟩

/-! ### Balances -/

/-- The account's own amounts -/
def setOwn (v : Info) (c d : Int) : Info :=
  { v with tot := fun w l => if l = 0 then (match w with | .coins => c | .delegated => d | .active => v.tot w l) else v.tot w l }

theorem Framed.reviveDelegator (k : Key) (v : Info) : Framed (reviveDelegator k v) := by
  unfold Referral.reviveDelegator
  refine .bind ?_ fun v => .ite ?_ (Still.pure _).framed
  · cases v.banishmentAt with
    | none => exact (Still.pure _).framed
    | some t => exact (Still.bind (.request _) fun _ => .pure _).framed
  · exact .bind Still.get.framed fun s => .bind (Still.orPanic _).framed fun p => .bind (.attach _ _ _ _) fun _ => (Still.pure _).framed

theorem Framed.delegationChanged (k : Key) (v : Info) (d : Int) : Framed (delegationChanged k v d) := by
  unfold Referral.delegationChanged
  refine .bind Still.get.framed fun s => .ite (Still.pure _).framed (.bind (Still.orPanic _).framed fun d => .ite ?_ (.reviveDelegator _ _))
  exact (Still.ite (.scheduleBanishment _ _) (.pure _)).framed

theorem Framed.ownBalance (k : Key) (v : Info) : Framed (ownBalance k v) := by
  unfold Referral.ownBalance
  refine .bind Still.get.framed fun s => .bind ?_ fun _ => (Still.pure _).framed
  exact .ite (Still.pure _).framed (.bind (Still.addCall _ _).framed fun _ => .delegationChanged _ _ _)

theorem Framed.balanceBody (k : Key) : Framed (balanceBody k) := by
  unfold Referral.balanceBody
  refine .bind Still.get.framed fun s => .ite (Still.pure _).framed (.bind (.update fun v => .ownBalance _ _) fun r => .bind ?_ fun _ => (Still.pure _).framed)
  refine .ite (Still.pure _).framed (.climb (fun l k v => ?_) _ _ _)
  exact (Still.bind (.ite (.pure _) (.addCall _ _)) fun _ => .pure _).framed

/-- What happens to an account when its delegation changes: a banishment may be scheduled or cancelled, or (`back`) the account comes
back from banishment under `parent`. -/
inductive Change (k : Key) (v : Info) (s t : State) (w : Info) : Prop
  | stay (b : Option Int) : Quiet s t → core w = { core v with banishmentAt := b } → Change k v s t w
  | back (parent : Option Key) (b : Option Int) (n : Nat) : v.banished = true → v.active = false →
      openAncestor s.work s.now s.month n v.referrer = some parent → Frame s t →
      view t.work = climbV (bump (money (v.tot .coins 0) (v.tot .delegated 0)) (addKid k)) 10 1 parent (view s.work) →
      core w = { core v with banishmentAt := b, referrer := parent, banished := false } → Change k v s t w

theorem reviveDelegator_ok {k : Key} {v w : Info} {s t : State} (h : reviveDelegator k v s = (.ok w, t)) (ha : v.active = false) :
    Change k v s t w := by
  unfold reviveDelegator at h
  rw [M.bind_ok_iff] at h
  obtain ⟨v1, s1, h1, h⟩ := h
  have hq : Quiet s s1 ∧ v1 = { v with banishmentAt := none } := by
    cases hb : v.banishmentAt with
    | none =>
      rw [hb] at h1
      simp at h1
      obtain ⟨rfl, rfl⟩ := h1
      exact ⟨.refl _, by rw [← hb]⟩
    | some x =>
      rw [hb] at h1
      dsimp only at h1
      rw [M.bind_ok_iff] at h1
      obtain ⟨_, s2, h2, h1⟩ := h1
      simp at h1
      obtain ⟨rfl, rfl⟩ := h1
      exact ⟨(Still.request _).of h2, rfl⟩
  obtain ⟨q, rfl⟩ := hq
  split at h
  · rename_i hban
    rw [M.get_bind_ok, M.orPanic_bind_ok] at h
    obtain ⟨parent, hp, h⟩ := h
    rw [M.bind_ok_iff] at h
    obtain ⟨_, s2, h2, h⟩ := h
    simp at h
    obtain ⟨rfl, rfl⟩ := h
    refine .back parent none s1.fuel hban ha ?_ (q.toFrame.trans ((Framed.attach _ _ _ _).of h2)) ?_ rfl
    · rw [q.work, q.now, q.month] at hp; exact hp
    · rw [attach_ok h2, q.work]
  · simp at h
    obtain ⟨rfl, rfl⟩ := h
    exact .stay none q rfl

theorem delegationChanged_ok {k : Key} {v w : Info} {d : Int} {s t : State} (h : delegationChanged k v d s = (.ok w, t)) :
    Change k v s t w := by
  unfold delegationChanged at h
  rw [M.get_bind_ok] at h
  split at h
  · simp at h
    obtain ⟨rfl, rfl⟩ := h
    exact .stay v.banishmentAt (.refl _) rfl
  · rename_i ha
    rw [M.orPanic_bind_ok] at h
    obtain ⟨x, -, h⟩ := h
    split at h
    · split at h
      · have q := (Still.scheduleBanishment _ _).of h
        unfold scheduleBanishment at h
        rw [M.get_bind_ok, M.bind_ok_iff] at h
        obtain ⟨_, s2, -, h⟩ := h
        simp at h
        exact .stay (some (s.now + s.month)) q (by rw [← h.1]; rfl)
      · simp at h
        obtain ⟨rfl, rfl⟩ := h
        exact .stay v.banishmentAt (.refl _) rfl
    · exact reviveDelegator_ok h (by simpa using ha)

theorem Change.of_quiet {k : Key} {v w : Info} {s s' t : State} (q : Quiet s s') (h : Change k v s' t w) : Change k v s t w := by
  cases h with
  | stay b q' e => exact .stay b (q.trans q') e
  | back parent b n h1 h2 h3 h4 h5 h6 =>
    refine .back parent b n h1 h2 ?_ (q.toFrame.trans h4) ?_ h6
    · rw [q.work, q.now, q.month] at h3; exact h3
    · rw [h5, q.work]

theorem ownBalance_ok {k : Key} {v w v' : Info} {dc dd : Int} {s t : State} (h : ownBalance k v s = (.ok (w, (v', dc, dd)), t)) :
    dc = s.balance k - v.tot .coins 0 ∧ dd = s.delegated k - v.tot .delegated 0 ∧ Change k v s t v' ∧
      w = setOwn v' (s.balance k) (s.delegated k) := by
  unfold ownBalance at h
  rw [M.get_bind_ok, M.bind_ok_iff] at h
  obtain ⟨v1, s1, h1, h⟩ := h
  simp at h
  obtain ⟨⟨hw, rfl, rfl, rfl⟩, rfl⟩ := h
  refine ⟨rfl, rfl, ?_, hw.symm⟩
  split at h1
  · simp at h1
    obtain ⟨rfl, rfl⟩ := h1
    exact .stay v.banishmentAt (.refl _) rfl
  · rw [M.bind_ok_iff] at h1
    obtain ⟨_, s2, h2, h1⟩ := h1
    exact (delegationChanged_ok h1).of_quiet ((Still.addCall _ _).of h2)

/-- The effect of a change of balance -/
inductive BalanceEffect (k : Key) (s t : State) : Prop
  | nothing : t = s → (infoOf s.work k).isEmpty = true → BalanceEffect k s t
  | out (b : Option Int) : (view s.work k).banished = true →
      view t.work = upd (view s.work) k (setOwn { view s.work k with banishmentAt := b } (s.balance k) (s.delegated k)) →
      BalanceEffect k s t
  | stay (b : Option Int) : (view s.work k).banished = false →
      view t.work = climbV (bump (money (s.balance k - (view s.work k).tot .coins 0) (s.delegated k - (view s.work k).tot .delegated 0)) id)
        10 1 (view s.work k).referrer
        (upd (view s.work) k (setOwn { view s.work k with banishmentAt := b } (s.balance k) (s.delegated k))) →
      BalanceEffect k s t
  | back (parent : Option Key) (b : Option Int) (n : Nat) : (view s.work k).banished = true → (view s.work k).active = false →
      openAncestor s.work s.now s.month n (infoOf s.work k).referrer = some parent →
      view t.work = climbV (bump (money (s.balance k - (view s.work k).tot .coins 0) (s.delegated k - (view s.work k).tot .delegated 0)) id)
        10 1 parent
        (upd (climbV (bump (money ((view s.work k).tot .coins 0) ((view s.work k).tot .delegated 0)) (addKid k)) 10 1 parent (view s.work)) k
          (setOwn { view s.work k with banishmentAt := b, referrer := parent, banished := false } (s.balance k) (s.delegated k))) →
      BalanceEffect k s t

theorem bump_id (d : What → Int) : bump d id = fun l v => v.add d l := by
  funext l v; unfold bump; split <;> rfl

theorem balanceBody_ok {k : Key} {b : Bool} {s t : State} (h : balanceBody k s = (.ok b, t)) :
    BalanceEffect k s t ∧ (b = false → t = s) := by
  unfold balanceBody at h
  rw [M.get_bind_ok] at h
  split at h
  · rename_i he
    simp at h
    obtain ⟨rfl, rfl⟩ := h
    exact ⟨.nothing rfl he, fun _ => rfl⟩
  · rw [M.bind_ok_iff] at h
    obtain ⟨⟨v', dc, dd⟩, s1, h1, h⟩ := h
    rw [M.bind_ok_iff] at h
    obtain ⟨_, s2, h2, h⟩ := h
    simp at h
    obtain ⟨rfl, rfl⟩ := h
    refine ⟨?_, by simp⟩
    obtain ⟨w, s3, h3, hfr, hv, -⟩ := update_ok h1
    obtain ⟨rfl, rfl, hch, rfl⟩ := ownBalance_ok h3
    have hcl : v'.banished = false → view s2.work =
        climbV (bump (money (s.balance k - (infoOf s.work k).tot .coins 0) (s.delegated k - (infoOf s.work k).tot .delegated 0)) id)
          10 1 v'.referrer (view s1.work) := by
      intro hb
      dsimp only at h2
      rw [if_neg (by simp [hb])] at h2
      rw [bump_id]
      refine (climb_ok (g := fun l v => v.add _ l) ?_ _ _ _ _ _ h2).2
      intro l a v s' w t h
      rw [M.bind_ok_iff] at h
      obtain ⟨_, s'', h', h⟩ := h
      have q := (Still.ite (.pure _) (.addCall _ _)).of h'
      simp at h
      obtain ⟨rfl, rfl⟩ := h
      exact ⟨q, rfl⟩
    cases hch with
    | stay b q e =>
      have hb : v'.banished = (infoOf s.work k).banished := by
        have := congrArg Info.banished e; exact this
      have hr : v'.referrer = (infoOf s.work k).referrer := by
        have := congrArg Info.referrer e; exact this
      have hv1 : view s1.work = upd (view s.work) k (setOwn { view s.work k with banishmentAt := b } (s.balance k) (s.delegated k)) := by
        rw [hv, q.work]
        have : core (setOwn v' (s.balance k) (s.delegated k)) = setOwn (core v') (s.balance k) (s.delegated k) := rfl
        rw [this, e]; rfl
      cases hbb : (infoOf s.work k).banished with
      | true =>
        dsimp only at h2
        rw [if_pos (by rw [hb, hbb])] at h2
        simp at h2
        refine .out b hbb ?_
        rw [← h2, hv1]
      | false =>
        refine .stay b hbb ?_
        rw [hcl (by rw [hb, hbb]), hv1, hr]
        rfl
    | back parent b n g1 g2 g3 g4 g5 e =>
      have hb : v'.banished = false := by have := congrArg Info.banished e; exact this
      have hr : v'.referrer = parent := by have := congrArg Info.referrer e; exact this
      refine .back parent b n g1 g2 g3 ?_
      rw [hcl hb, hv, hr]
      have : core (setOwn v' (s.balance k) (s.delegated k)) = setOwn (core v') (s.balance k) (s.delegated k) := rfl
      rw [this, e, g5]
      rfl

end Verif.Referral
