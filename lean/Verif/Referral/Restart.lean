import Verif.Referral.RefreshCases
import Verif.Referral.ExportProps
import Verif.Referral.Exact2
import Verif.Referral.Totals2
import Verif.Referral.Actives
import Verif.Referral.Dates
import Verif.Referral.Props2

/-!
Property C102: a chain that is started from the files of another one has the same network, with the same amounts.
-/
namespace Verif.Referral

/-! ### Specification -/

/-- What the new chain (`w`) records of an account is what the old chain (`v`) did, the amounts on the levels up to `top`. -/
structure Carried (top : Nat) (v w : Info) : Prop where
  referrer : w.referrer = v.referrer
  referrals : w.referrals = v.referrals
  banished : w.banished = v.banished
  active : w.active = v.active
  actives : w.activeReferrals.Perm v.activeReferrals
  amounts : ∀ x l, l ≤ top → w.tot x l = v.tot x l
  compressionAt : w.compressionAt = v.compressionAt
  transition : v.banished = false → w.transition = v.transition

/-- The files of the bank and of the profiles describe the state `s`. -/
structure Described (s : State) (purses : List (Addr × Purse)) (active : List Key) : Prop where
  right : ∀ x ∈ purses, s.purse x.1 = x.2
  complete : ∀ k, s.store.has k = true → s.purse (addrOf k) ≠ {} → addrOf k ∈ purses.map (·.1)
  active : ∀ k, k ∈ active ↔ (infoOf s.store k).active = true

/-! ### Proofs -/

section
variable {top : Nat}

/-- The records of the module are sound. -/
structure Kempt (top : Nat) (s : State) : Prop where
  tally : Tally top s
  ledger : Ledger (fun k => s.store.has k = true) s
  listed : Listed s

/-! #### What the import leaves alone -/

def Outs {α : Type} (m : Act α) : Prop := ∀ s, Outer s (m s).2

theorem Outs.bind {α β : Type} {m : Act α} {f : α → Act β} (hm : Outs m) (hf : ∀ a, Outs (f a)) : Outs (m >>= f) := by
  intro s
  have := hm s
  rcases h : m s with ⟨r, t⟩
  rw [h] at this
  cases r with
  | ok a => rw [M.bind_ok h]; exact this.trans (hf a t)
  | err => rw [M.bind_err h]; exact this
  | panic => rw [M.bind_panic h]; exact this

theorem Outs.forEach {β : Type} {l : List β} {f : β → Act Unit} (h : ∀ b, Outs (f b)) : Outs (M.forEach l f) := by
  induction l with
  | nil => exact fun s => .refl s
  | cons b l ih => rw [M.forEach_cons]; exact .bind (h b) fun _ => ih

theorem Outs.must {α : Type} {m : Act α} (h : Outs m) : Outs (must m) := by
  intro s
  have := h s
  unfold Referral.must
  rcases hm : m s with ⟨r, t⟩
  rw [hm] at this
  cases r <;> exact this

theorem Outs.recover {α : Type} {m : Act α} (h : Outs m) : Outs (recover m) := by
  intro s
  have := h s
  unfold Referral.recover
  rcases hm : m s with ⟨r, t⟩
  rw [hm] at this
  cases r <;> exact this

theorem Outs.get : Outs (M.get : Act State) := fun s => .refl s
theorem Outs.errIf (c : Bool) : Outs (M.errIf c : Act Unit) := fun s => by cases c <;> exact .refl s
theorem Outs.bunch {e : Env} {m : Act Bool} (h : Framed m) : Outs (bunch e m) := fun s => (bunch_cases h s).1

theorem importFields_framed (g : GenesisFile) : Framed (importFields g) := by
  unfold importFields
  refine .bind (.forEach fun b => .update fun v => (Still.pure _).framed) fun _ =>
    .bind (.forEach fun b => .update fun v => (Still.pure _).framed) fun _ =>
    .bind (.forEach fun b => .update fun v => (Still.bind (.setStatus _ _ _) fun _ => .pure _).framed) fun _ =>
    .bind (.forEach fun b => .update fun v => (Still.pure _).framed) fun _ => (Still.pure _).framed

theorem importGenesis_outs (e : Env) (g : GenesisFile) : Outs (importGenesis e g) := by
  unfold importGenesis
  refine .bind (.forEach fun k => .must ?_) fun _ => .bind (.forEach fun r => .forEach fun c => .must ?_) fun _ =>
    .bind (.forEach fun x => ?_) fun _ => .bunch (importFields_framed g)
  · unfold addTopLevel
    exact .recover (.bind .get fun s => .bind (.errIf _) fun _ => .bunch (.bind (.put _ _) fun _ => (Still.pure _).framed))
  · unfold appendChild
    exact .bind .get fun s => .bind (.errIf _) fun _ => .bunch (.appendBody _ _ _ _)
  · intro s
    refine ⟨rfl, rfl, rfl, rfl, rfl, rfl, fun k hk => ?_⟩
    show (s.store.set _ _).has k = true
    unfold KV.has at hk ⊢
    rw [KV.get_set]
    split
    · rfl
    · exact hk

/-! #### After the import of the module -/

/-- The state `u` on the way from the file of `s` to a running chain -/
structure Midway (top : Nat) (s u : State) : Prop where
  kempt : Kempt top u
  frame : ∀ k, (infoOf u.store k).referrer = (infoOf s.store k).referrer ∧ (infoOf u.store k).referrals = (infoOf s.store k).referrals ∧
    (infoOf u.store k).banished = (infoOf s.store k).banished ∧
    ((infoOf s.store k).banished = false → (infoOf u.store k).transition = (infoOf s.store k).transition)
  has : ∀ k, u.store.has k = s.store.has k
  due : ∀ k, (infoOf u.store k).active = false → (infoOf s.store k).banished = false → (infoOf u.store k).compressionAt = (infoOf s.store k).compressionAt

theorem dressed_fields (v : Info) (r : Option Key) (l : List Key) :
    (dressed v (plainInfo r l)).compressionAt = v.compressionAt ∧ (dressed v (plainInfo r l)).banishmentAt = v.banishmentAt ∧
    (dressed v (plainInfo r l)).transition = v.transition := by
  unfold dressed plainInfo
  refine ⟨?_, ?_, ?_⟩
  · dsimp only; cases v.compressionAt <;> rfl
  · dsimp only; cases v.banishmentAt <;> rfl
  · dsimp only; cases v.transition <;> rfl

/-- What the imported record of an account is like -/
structure Newborn (v w : Info) : Prop where
  referrer : w.referrer = v.referrer
  referrals : w.referrals = v.referrals
  banished : w.banished = v.banished
  active : w.active = false
  actives : w.activeReferrals = []
  tot : ∀ x l, w.tot x l = 0
  transition : v.banished = false → w.transition = v.transition
  transition' : v.banished = true → w.transition = none
  compressionAt : v.banished = false → w.compressionAt = v.compressionAt
  compressionAt' : v.banished = true → w.compressionAt = none
  banishmentAt : w.banishmentAt = none ∨ w.banishmentAt = v.banishmentAt
  status : v.banished = true ∨ w.status = 1 ∨ w.status = v.status

theorem newborn_of {s t : State} (hb : ∀ k, (infoOf s.store k).banished = true → (infoOf s.store k).referrals = [])
    (h : ∀ k, t.store.get k =
        if s.store.has k = false then none
        else if (infoOf s.store k).banished = true then some (banishedInfo (infoOf s.store k).referrer)
        else some (dressed (infoOf s.store k) (plainInfo (infoOf s.store k).referrer (infoOf s.store k).referrals))) (k : Key) :
    t.store.has k = s.store.has k ∧ (s.store.has k = true → Newborn (infoOf s.store k) (infoOf t.store k)) ∧
    (s.store.has k = false → infoOf t.store k = {}) := by
  have hk := h k
  cases hh : s.store.has k with
  | false =>
    rw [hh, if_pos rfl] at hk
    have : t.store.has k = false := by unfold KV.has; rw [hk]; rfl
    exact ⟨this, fun h => (by cases h), fun _ => infoOf_of_not_has this⟩
  | true =>
    rw [hh, if_neg (by simp)] at hk
    cases hbk : (infoOf s.store k).banished with
    | true =>
      rw [if_pos hbk] at hk
      rw [infoOf_get hk]
      refine ⟨by unfold KV.has; rw [hk]; rfl, fun _ => ?_, fun h => by cases h⟩
      exact ⟨rfl, (hb k hbk).symm, hbk.symm, rfl, rfl, fun _ _ => rfl, fun h => (by rw [hbk] at h; cases h), fun _ => rfl, fun h => (by rw [hbk] at h; cases h),
        fun _ => rfl, .inl rfl, .inl hbk⟩
    | false =>
      rw [if_neg (by rw [hbk]; simp)] at hk
      rw [infoOf_get hk]
      refine ⟨by unfold KV.has; rw [hk]; rfl, fun _ => ?_, fun h => by cases h⟩
      obtain ⟨d1, d2, d3⟩ := dressed_fields (infoOf s.store k) (infoOf s.store k).referrer (infoOf s.store k).referrals
      refine ⟨rfl, rfl, hbk.symm, rfl, rfl, fun _ _ => rfl, fun _ => d3, fun h => (by rw [hbk] at h; cases h), fun _ => d1, fun h => (by rw [hbk] at h; cases h),
        .inr d2, .inr ?_⟩
      unfold dressed plainInfo
      dsimp only
      cases (infoOf s.store k).downgradeAt with
      | none => exact .inl rfl
      | some _ => exact .inr rfl

theorem newborn_empty : Newborn {} {} :=
  ⟨rfl, rfl, rfl, rfl, rfl, fun _ _ => rfl, fun _ => rfl, fun _ => rfl, fun _ => rfl, fun _ => rfl, .inl rfl, .inr (.inr rfl)⟩

theorem midway_import {s t : State} (hs : Kempt top s) (hp : ∀ a, t.purse a = {})
    (h : ∀ k, t.store.get k =
        if s.store.has k = false then none
        else if (infoOf s.store k).banished = true then some (banishedInfo (infoOf s.store k).referrer)
        else some (dressed (infoOf s.store k) (plainInfo (infoOf s.store k).referrer (infoOf s.store k).referrals))) :
    Midway top s t ∧ ∀ k, (infoOf t.store k).active = false := by
  have hn := newborn_of (s := s) (t := t) (fun k hk => hs.tally.tidy.leaf k hk) h
  have hb : ∀ k, Newborn (infoOf s.store k) (infoOf t.store k) := by
    intro k
    cases hh : s.store.has k with
    | true => exact (hn k).2.1 hh
    | false => rw [(hn k).2.2 hh, infoOf_of_not_has hh]; exact newborn_empty
  have hhas : ∀ k, t.store.has k = s.store.has k := fun k => (hn k).1
  have htree : treeOf (view t.store) = treeOf (view s.store) := by
    unfold treeOf
    congr 1 <;> funext k
    · exact (hb k).referrer
    · exact (hb k).referrals
    · exact (hb k).banished
  refine ⟨⟨⟨⟨?_, ?_, ?_⟩, ⟨⟨?_, ?_, ?_, ?_⟩, ?_⟩, ?_⟩, fun k => ⟨(hb k).referrer, (hb k).referrals, (hb k).banished, (hb k).transition⟩, hhas,
    fun k _ hk => (hb k).compressionAt hk⟩, fun k => (hb k).active⟩
  · rw [htree]
    have : (fun k => t.store.has k = true) = fun k => s.store.has k = true := by funext k; rw [hhas]
    rw [this]
    exact hs.tally.forest
  · refine ⟨fun a ha => ?_, fun a _ => (hb a).active, fun a ha => ?_, fun a ha => ?_, fun a ha => ?_, fun a => ?_⟩
    · show (infoOf t.store a).referrals = []
      rw [(hb a).referrals]
      exact hs.tally.tidy.leaf a ((hb a).banished.symm.trans ha)
    · exact (hb a).compressionAt' ((hb a).banished.symm.trans ha)
    · show (infoOf t.store a).referrer ≠ none
      rw [(hb a).referrer]
      exact hs.tally.tidy.below a ((hb a).banished.symm.trans ha)
    · exact absurd (ha.symm.trans (hb a).active) (by simp)
    · show (infoOf t.store a).tot .active 0 = if (infoOf t.store a).active then 1 else 0
      rw [(hb a).tot, (hb a).active]; rfl
  · intro a w l _
    unfold defect kidSum
    have : ∀ (x : List Key), (x.map fun c => (view t.store c).tot w l).sum = 0 := by
      intro x
      induction x with
      | nil => rfl
      | cons c x ih =>
        rw [List.map_cons, List.sum_cons, ih]
        show (infoOf t.store c).tot w l + 0 = 0
        rw [(hb c).tot]; rfl
    rw [this]
    show (infoOf t.store a).tot w (l + 1) - 0 = 0
    rw [(hb a).tot]; rfl
  · intro k; rfl
  · intro k hk
    rw [hhas] at hk
    have g := hs.ledger.fit.kin k hk
    refine ⟨fun p hp => ?_, fun q hq => ?_, fun b hb' => ?_, fun x hx => ?_⟩
    · show t.store.has p = true
      rw [hhas]; exact g.referrer p ((hb k).referrer.symm.trans hp)
    · show t.store.has q = true
      rw [hhas]; exact g.referrals q (by rw [← (hb k).referrals]; exact hq)
    · show t.store.has b = true
      rw [hhas]
      cases hbk : (infoOf s.store k).banished with
      | true => rw [(hb k).transition' hbk] at hb'; cases hb'
      | false => exact g.transition b (((hb k).transition hbk).symm.trans hb')
    · rcases (hb k).banishmentAt with e | e
      · rw [e] at hx; cases hx
      · exact g.date x (e.symm.trans hx)
  · intro k hk
    rw [hhas] at hk
    rcases (hb k).status with e | e | e
    · exact .inl ((hb k).banished.trans e)
    · exact .inr (by rw [e])
    · rcases hs.ledger.fit.alive k hk with g | g
      · exact .inl ((hb k).banished.trans g)
      · exact .inr (by rw [e]; exact g)
  · intro k _ _
    unfold Own State.balance State.delegated
    rw [hp, (hb k).tot, (hb k).tot]
    exact ⟨rfl, rfl⟩
  · exact fun k hk => hs.ledger.usual k (by rw [← hhas]; exact hk)
  · refine ⟨fun a => ?_, fun a c => ?_, fun a _ => (hb a).active⟩
    · show (infoOf t.store a).activeReferrals.Nodup
      rw [(hb a).actives]; exact List.nodup_nil
    · show c ∈ (infoOf t.store a).activeReferrals ↔ _ ∧ (infoOf t.store c).active = true
      rw [(hb a).actives, (hb c).active]
      simp

/-! #### The bank -/

theorem midway_has {s u t : State} (h : Midway top s u) (hl : Ledger (fun k => u.store.has k = true) t) : ∀ k, t.store.has k = s.store.has k := by
  intro k
  have := hl.fit.keys k
  rw [← h.has k]
  cases h1 : t.store.has k <;> cases h2 : u.store.has k <;> rw [h1, h2] at this <;> simp at this ⊢

theorem ledger_self {D : Key → Prop} {t : State} (hl : Ledger D t) : Ledger (fun k => t.store.has k = true) t := by
  have : (fun k => t.store.has k = true) = D := by funext k; exact propext (hl.fit.keys k)
  rw [this]; exact hl

/-- What a change of a balance leaves alone, unless a banished account comes back by it -/
theorem setPurse_frame {e : Env} {a : Addr} {p : Purse} {u t : State} (h : setPurse e a p u = (.ok (), t))
    (hb : (infoOf u.store (text a)).banished = true → p.delegated ≤ u.dust) {β : Type} (π : Info → β)
    (h1 : ∀ v b c d, π (setOwn { v with banishmentAt := b } c d) = π v) (h2 : ∀ v d l, π (v.add d l) = π v) :
    ∀ j, π (view t.store j) = π (view u.store j) := by
  intro j
  have hrule := fun hk => (C66_balance hk h).1
  unfold setPurse at h
  rw [M.modify_bind_ok] at h
  generalize hu : ({ u with purse := fun b => if b = a then p else u.purse b } : State) = u' at h
  have hst : u'.store = u.store := by rw [← hu]
  obtain ⟨b, t', g1, g2, g3⟩ := bunch_ok h
  obtain ⟨heff, hno⟩ := balanceBody_ok g1
  have hw : u'.fresh.work = u.store := hst
  cases b with
  | false =>
    have : t.store = u.store := by rw [g3 rfl, hno rfl]; exact hst
    rw [this]
  | true =>
    have ht := g2 rfl
    rw [ht]
    have hadd : ∀ d l v, π (bump d id l v) = π v := fun d l v => bump_all (π := π) (fun l v => h2 v d l) (fun v => rfl) l v
    have hup : ∀ (I : View) b c d, π (upd I (text a) (setOwn { I (text a) with banishmentAt := b } c d) j) = π (I j) := by
      intro I b c d
      unfold upd
      split
      · rename_i e; rw [h1, e]
      · rfl
    cases heff with
    | nothing e _ => rw [e, hw]
    | out b _ e => rw [e, hup, hw]
    | stay b _ e => rw [e, climbV_all (hadd _), hup, hw]
    | back parent b n hbk hact _ e =>
      exfalso
      rw [hw] at hbk
      have hbk' : (infoOf u.store (text a)).banished = true := hbk
      have hr := hrule (by unfold Info.isEmpty; rw [hbk']; simp)
      have ht' : (infoOf t.store (text a)).banished = false := by
        rw [ht]
        show (view t'.work (text a)).banished = false
        rw [e, climbV_all (π := Info.banished) (bump_all (L := id) (fun _ _ => rfl) fun _ => rfl), upd_self]
        rfl
      rw [ht'] at hr
      have hd := hb hbk'
      generalize (infoOf t.store (text a)).banishmentAt = x at hr
      generalize hv : infoOf u.store (text a) = v at hr hbk'
      generalize hf : false = f at hr
      cases hr with
      | same _ => rw [← hf] at hbk'; cases hbk'
      | active _ => rw [← hf] at hbk'; cases hbk'
      | back _ _ hlt => omega
      | warn _ _ _ _ h _ _ => rw [hbk'] at h; cases h
      | keep _ _ _ => rw [← hf] at hbk'; cases hbk'

theorem midway_purse (htop : top ≤ 10) {e : Env} {s u t : State} {a : Addr} {p : Purse} (hm : Midway top s u) (ha : ∀ k, (infoOf u.store k).active = false)
    (hb : ∀ k, (infoOf s.store k).banished = true → (s.purse (addrOf k)).delegated ≤ u.dust) (hp : s.purse a = p)
    (h : setPurse e a p u = (.ok (), t)) :
    Midway top s t ∧ (∀ k, (infoOf t.store k).active = false) ∧ t.dust = u.dust ∧ t.purse = fun b => if b = a then p else u.purse b := by
  have hbb : (infoOf u.store (text a)).banished = true → p.delegated ≤ u.dust := by
    intro hk
    have := hb (text a) ((hm.frame (text a)).2.2.1.symm.trans hk)
    rw [show addrOf (text a) = a from Nat.mul_div_cancel_left a (by decide), hp] at this
    exact this
  have fr := fun {β : Type} (π : Info → β) h1 h2 => setPurse_frame h hbb π h1 h2
  have hl : Ledger (fun k => u.store.has k = true) t := by
    have := hm.kempt.ledger.setPurse e e a p (u := ()) (by rw [h])
    rw [h] at this; exact this
  have htally : Tally top t := by have := setPurse_tally (htop) (e := e) (a := a) (p := p) hm.kempt.tally; rw [h] at this; exact this
  have hlist : Listed t := by have := setPurse_listed (e := e) (a := a) (p := p) hm.kempt.listed; rw [h] at this; exact this
  have fa : ∀ k, (infoOf t.store k).active = (infoOf u.store k).active := fr Info.active (fun _ _ _ _ => rfl) fun _ _ _ => rfl
  have fx : ∀ k, (infoOf t.store k).referrer = (infoOf u.store k).referrer := fr Info.referrer (fun _ _ _ _ => rfl) fun _ _ _ => rfl
  have fy : ∀ k, (infoOf t.store k).referrals = (infoOf u.store k).referrals := fr Info.referrals (fun _ _ _ _ => rfl) fun _ _ _ => rfl
  have fb : ∀ k, (infoOf t.store k).banished = (infoOf u.store k).banished := fr Info.banished (fun _ _ _ _ => rfl) fun _ _ _ => rfl
  have ft : ∀ k, (infoOf t.store k).transition = (infoOf u.store k).transition := fr Info.transition (fun _ _ _ _ => rfl) fun _ _ _ => rfl
  have fc : ∀ k, (infoOf t.store k).compressionAt = (infoOf u.store k).compressionAt := fr Info.compressionAt (fun _ _ _ _ => rfl) fun _ _ _ => rfl
  refine ⟨⟨⟨htally, ledger_self hl, hlist⟩, fun k => ?_, midway_has hm hl, fun k h1 h2 => ?_⟩, fun k => by rw [fa]; exact ha k, ?_⟩
  · rw [fx, fy, fb, ft]; exact hm.frame k
  · rw [fc]; exact hm.due k (by rw [← fa]; exact h1) h2
  · unfold setPurse at h
    rw [M.modify_bind_ok] at h
    have := (bunch_cases (e := e) (.balanceBody (text a)) ({ u with purse := fun b => if b = a then p else u.purse b } : State)).1
    unfold onBalanceChanged at h
    rw [h] at this
    exact ⟨this.dust, this.purse⟩

theorem midway_purses (htop : top ≤ 10) {e : Env} {s : State} : ∀ (l : List (Addr × Purse)) (u t : State), Midway top s u → (∀ k, (infoOf u.store k).active = false) →
    (∀ k, (infoOf s.store k).banished = true → (s.purse (addrOf k)).delegated ≤ u.dust) → (∀ x ∈ l, s.purse x.1 = x.2) →
    M.forEach l (fun x => must (setPurse e x.1 x.2)) u = (.ok (), t) →
    Midway top s t ∧ (∀ k, (infoOf t.store k).active = false) ∧ ∀ a, t.purse a = if a ∈ l.map (·.1) then s.purse a else u.purse a
  | [], u, t, hm, ha, _, _, h => by
    rw [M.forEach_nil] at h
    cases h
    exact ⟨hm, ha, fun a => by simp⟩
  | x :: l, u, t, hm, ha, hb, hp, h => by
    rw [M.forEach_cons, M.bind_ok_iff] at h
    obtain ⟨_, w, h1, h2⟩ := h
    rw [must_ok_iff] at h1
    obtain ⟨m1, a1, d1, p1⟩ := midway_purse htop hm ha hb (hp x List.mem_cons_self) h1
    obtain ⟨m2, a2, p2⟩ := midway_purses htop l w t m1 a1 (by rw [d1]; exact hb) (fun y hy => hp y (List.mem_cons_of_mem _ hy)) h2
    refine ⟨m2, a2, fun a => ?_⟩
    rw [p2 a, p1]
    by_cases h3 : a ∈ l.map (·.1)
    · rw [if_pos h3, if_pos (by rw [List.map_cons]; exact List.mem_cons_of_mem _ h3)]
    · rw [if_neg h3]
      by_cases h4 : a = x.1
      · subst h4
        rw [if_pos (by simp)]
        simp [hp x List.mem_cons_self]
      · rw [if_neg (by rw [List.map_cons, List.mem_cons]; exact fun h => h.elim h4 h3)]
        simp [h4]

/-! #### The profiles -/

theorem relist_keeps {β : Type} (π : Info → β) (k : Key) (h : ∀ v l, π { v with activeReferrals := l } = π v) (v : Info) : π (relist true k v) = π v := by
  unfold relist
  rw [if_pos rfl]
  exact h _ _

theorem midway_active (htop : top ≤ 10) {e : Env} {s u t : State} {k : Key} (hs : Kempt top s) (hm : Midway top s u) (hk : (infoOf s.store k).active = true)
    (h : setActive e k true false u = (.ok (), t)) :
    Midway top s t ∧ (∀ j, (infoOf t.store j).active = if j = k then true else (infoOf u.store j).active) ∧ t.purse = u.purse := by
  have hsb : (infoOf s.store k).banished = false := by
    cases hb : (infoOf s.store k).banished with
    | false => rfl
    | true => exact absurd (hk.symm.trans (hs.tally.tidy.asleep k hb)) (by simp)
  have hub : (infoOf u.store k).banished = false := (hm.frame k).2.2.1.trans hsb
  have hsh : s.store.has k = true := by
    cases hh : s.store.has k with
    | true => rfl
    | false => rw [infoOf_of_not_has hh] at hk; cases hk
  have hl : Ledger (fun j => u.store.has j = true) t := by
    have := hm.kempt.ledger.setActive e (k := k) (by show u.store.has k = true; rw [hm.has]; exact hsh) true false
    rw [h] at this; exact this
  have htally : Tally top t := by
    have := setActive_tally (htop) (e := e) (k := k) (value := true) (check := false) hm.kempt.tally fun _ => hub
    rw [h] at this; exact this
  have hlist : Listed t := by
    have := setActive_listed (e := e) (k := k) (value := true) (check := false) hm.kempt.listed hm.kempt.tally.good fun _ => hub
    rw [h] at this; exact this
  have hpurse : t.purse = u.purse := by
    have := (bunch_cases (e := e) (.activeBody k true false) u).1
    unfold setActive at h
    rw [h] at this
    exact this.purse
  obtain ⟨b, t', g1, g2, g3⟩ := bunch_ok h
  have fr : (∀ {β : Type} (π : Info → β), (∀ v d l, π (v.add d l) = π v) → (∀ v l, π { v with activeReferrals := l } = π v) →
      (∀ v x b, π (activated v true x b) = π v) → ∀ j, π (view t.store j) = π (view u.store j)) ∧
      (∀ j, (infoOf t.store j).active = if j = k then true else (infoOf u.store j).active) ∧
      ∀ j, j ≠ k → (infoOf t.store j).compressionAt = (infoOf u.store j).compressionAt := by
    rcases activeBody_ok g1 with ⟨hb, he, ha⟩ | ⟨hb, -, -, x, hv⟩
    · have : t.store = u.store := by rw [g3 hb, he]; rfl
      rw [this]
      refine ⟨fun π _ _ _ j => rfl, fun j => ?_, fun j _ => rfl⟩
      split
      · rename_i e; rw [e]; exact ha
      · rfl
    · have ht := g2 hb
      have hu0 : view u.fresh.work = view u.store := rfl
      rw [hu0] at hv
      rw [ht]
      refine ⟨fun π q1 q2 q3 j => ?_, fun j => ?_, fun j hj => ?_⟩
      · rw [hv, climbV_all (π := π) (bump_all (fun l v => q1 v _ l) (relist_keeps π k q2))]
        unfold upd
        split
        · rename_i e; rw [q3, e]
        · rfl
      · show (view t'.work j).active = if j = k then true else (view u.store j).active
        rw [hv, climbV_all (π := Info.active) (bump_all (fun _ _ => rfl) (relist_keeps Info.active k fun _ _ => rfl))]
        unfold upd
        split <;> rfl
      · show (view t'.work j).compressionAt = (view u.store j).compressionAt
        rw [hv, climbV_all (π := Info.compressionAt) (bump_all (fun _ _ => rfl) (relist_keeps Info.compressionAt k fun _ _ => rfl)),
          upd_ne _ _ hj]
  obtain ⟨fr, fact, fcomp⟩ := fr
  have fx : ∀ k, (infoOf t.store k).referrer = (infoOf u.store k).referrer := fr Info.referrer (fun _ _ _ => rfl) (fun _ _ => rfl) fun _ _ _ => rfl
  have fy : ∀ k, (infoOf t.store k).referrals = (infoOf u.store k).referrals := fr Info.referrals (fun _ _ _ => rfl) (fun _ _ => rfl) fun _ _ _ => rfl
  have fb : ∀ k, (infoOf t.store k).banished = (infoOf u.store k).banished := fr Info.banished (fun _ _ _ => rfl) (fun _ _ => rfl) fun _ _ _ => rfl
  have ft : ∀ k, (infoOf t.store k).transition = (infoOf u.store k).transition := fr Info.transition (fun _ _ _ => rfl) (fun _ _ => rfl) fun _ _ _ => rfl
  refine ⟨⟨⟨htally, ledger_self hl, hlist⟩, fun j => ?_, midway_has hm hl, fun j h1 h2 => ?_⟩, fact, hpurse⟩
  · rw [fx, fy, fb, ft]; exact hm.frame j
  · rw [fact] at h1
    by_cases hj : j = k
    · rw [if_pos hj] at h1; cases h1
    · rw [if_neg hj] at h1
      rw [fcomp j hj]
      exact hm.due j h1 h2

theorem midway_actives (htop : top ≤ 10) {e : Env} {s : State} (hs : Kempt top s) : ∀ (l : List Key) (u t : State), Midway top s u → (∀ k ∈ l, (infoOf s.store k).active = true) →
    M.forEach l (fun k => must (setActive e k true false)) u = (.ok (), t) →
    Midway top s t ∧ (∀ j, (infoOf t.store j).active = true ↔ j ∈ l ∨ (infoOf u.store j).active = true) ∧ t.purse = u.purse
  | [], u, t, hm, _, h => by
    rw [M.forEach_nil] at h
    cases h
    exact ⟨hm, fun j => by simp, rfl⟩
  | k :: l, u, t, hm, hl, h => by
    rw [M.forEach_cons, M.bind_ok_iff] at h
    obtain ⟨_, w, h1, h2⟩ := h
    rw [must_ok_iff] at h1
    obtain ⟨m1, a1, p1⟩ := midway_active htop hs hm (hl k List.mem_cons_self) h1
    obtain ⟨m2, a2, p2⟩ := midway_actives htop hs l w t m1 (fun y hy => hl y (List.mem_cons_of_mem _ hy)) h2
    refine ⟨m2, fun j => ?_, p2.trans p1⟩
    rw [a2, a1, List.mem_cons]
    by_cases hj : j = k
    · simp [hj]
    · simp [hj]

/-! #### The amounts -/

theorem carried_of {s u : State} (hs : Kempt top s) (hm : Midway top s u) (hp : ∀ k, s.store.has k = true → u.purse (addrOf k) = s.purse (addrOf k)) (ha : ∀ k, (infoOf u.store k).active = (infoOf s.store k).active)
    (k : Key) : Carried top (infoOf s.store k) (infoOf u.store k) := by
  obtain ⟨f1, f2, f3, f4⟩ := hm.frame k
  refine ⟨f1, f2, f3, ha k, ?_, ?_, ?_, f4⟩
  · refine (List.perm_ext_iff_of_nodup (hm.kempt.listed.nodup k) (hs.listed.nodup k)).2 fun c => ?_
    show c ∈ (view u.store k).activeReferrals ↔ c ∈ (view s.store k).activeReferrals
    rw [hm.kempt.listed.mem, hs.listed.mem]
    show (infoOf u.store c).referrer = some k ∧ (infoOf u.store c).active = true ↔ (infoOf s.store c).referrer = some k ∧ (infoOf s.store c).active = true
    rw [(hm.frame c).1, ha]
  · intro x l hl
    induction l generalizing k with
    | zero =>
      have hbal : s.store.has k = true → u.balance k = s.balance k ∧ u.delegated k = s.delegated k := fun hh => by
        unfold State.balance State.delegated; rw [hp k hh]; exact ⟨rfl, rfl⟩
      cases x with
      | active =>
        have h1 := hm.kempt.tally.tidy.own k
        have h2 := hs.tally.tidy.own k
        change (infoOf u.store k).tot .active 0 = if (infoOf u.store k).active then 1 else 0 at h1
        change (infoOf s.store k).tot .active 0 = if (infoOf s.store k).active then 1 else 0 at h2
        rw [h1, h2, ha]
      | coins =>
        cases hh : s.store.has k with
        | false => rw [infoOf_of_not_has hh, infoOf_of_not_has ((hm.has k).trans hh)]
        | true =>
          rw [(hs.ledger.fit.own k hh fun h => h).1, (hm.kempt.ledger.fit.own k ((hm.has k).trans hh) fun h => h).1, (hbal hh).1]
      | delegated =>
        cases hh : s.store.has k with
        | false => rw [infoOf_of_not_has hh, infoOf_of_not_has ((hm.has k).trans hh)]
        | true =>
          rw [(hs.ledger.fit.own k hh fun h => h).2, (hm.kempt.ledger.fit.own k ((hm.has k).trans hh) fun h => h).2, (hbal hh).2]
    | succ l ih =>
      have h1 := hm.kempt.tally.sums k x l (by omega)
      have h2 := hs.tally.sums k x l (by omega)
      unfold defect at h1 h2
      have h3 : kidSum (view u.store) k x l = kidSum (view s.store) k x l := by
        unfold kidSum
        show ((infoOf u.store k).referrals.map _).sum = ((infoOf s.store k).referrals.map _).sum
        rw [f2]
        congr 1
        refine List.map_congr_left fun c _ => ?_
        obtain ⟨c1, c2, c3, c4⟩ := hm.frame c
        exact ih c c1 c2 c3 c4 (by omega)
      change (infoOf u.store k).tot x (l + 1) - _ = 0 at h1
      change (infoOf s.store k).tot x (l + 1) - _ = 0 at h2
      omega
  · cases hb : (infoOf s.store k).banished with
    | true =>
      have h1 : (infoOf u.store k).compressionAt = none := hm.kempt.tally.tidy.done k (f3.trans hb)
      have h2 : (infoOf s.store k).compressionAt = none := hs.tally.tidy.done k hb
      rw [h1, h2]
    | false =>
      cases hac : (infoOf s.store k).active with
      | true =>
        have h1 : (infoOf u.store k).compressionAt = none := hm.kempt.tally.tidy.idle k ((ha k).trans hac)
        have h2 : (infoOf s.store k).compressionAt = none := hs.tally.tidy.idle k hac
        rw [h1, h2]
      | false => exact hm.due k ((ha k).trans hac) hb

theorem refresh_has {e : Env} {s t : State} (hs : Ledger (fun k => s.store.has k = true) s) (h : refresh e s = (.ok (), t)) (k : Key) :
    t.store.has k = s.store.has k := by
  obtain ⟨u, h1, rfl⟩ := refresh_inv h
  have hat : At (fun k => s.store.has k = true) s.balance s.delegated (fun _ => False) { s with work := s.store, calls := [] } := hs.at
  have hf : Fix (At (fun k => s.store.has k = true) s.balance s.delegated fun _ => False) (At (fun k => s.store.has k = true) s.balance s.delegated fun _ => False)
      Any (M.forEach s.store.keys fun k => must (update k true fun v => pure (v, ()))) := by
    refine .forEach fun k hk => .must (.update (mem_keys_of_has.1 hk) (fun _ _ h => h) fun v h1 h2 h3 => .pure ⟨h1, fun _ => h2, h3, trivial⟩)
  have := (hf _ _ _ hat h1).1.fit.keys k
  show u.work.has k = s.store.has k
  cases h1 : u.work.has k <;> cases h2 : s.store.has k <;> rw [h1, h2] at this <;> simp at this ⊢

theorem Carried.core {v w w' : Info} (h : Carried top v w) (e : core w' = core w) : Carried top v w' := by
  refine ⟨?_, ?_, ?_, ?_, ?_, ?_, ?_, ?_⟩
  · exact (show w'.referrer = w.referrer from (congrArg Info.referrer e :)).trans h.referrer
  · exact (show w'.referrals = w.referrals from (congrArg Info.referrals e :)).trans h.referrals
  · exact (show w'.banished = w.banished from (congrArg Info.banished e :)).trans h.banished
  · exact (show w'.active = w.active from (congrArg Info.active e :)).trans h.active
  · rw [(show w'.activeReferrals = w.activeReferrals from (congrArg Info.activeReferrals e :))]; exact h.actives
  · rw [core_eq_tot e]; exact h.amounts
  · exact (show w'.compressionAt = w.compressionAt from (congrArg Info.compressionAt e :)).trans h.compressionAt
  · exact fun hb => (show w'.transition = w.transition from (congrArg Info.transition e :)).trans (h.transition hb)

theorem restart_carried (htop : top ≤ 10) {e : Env} (he : e.Fine) {s s0 : State} (hs : Kempt top s) (h0 : Unborn s0) {purses : List (Addr × Purse)} {active : List Key}
    (hd : Described s purses active) (hb : ∀ k, (infoOf s.store k).banished = true → (s.purse (addrOf k)).delegated ≤ s0.dust) :
    ∃ g, exportGenesis s.store = some g ∧ ∀ t, restart e g purses active s0 = (.ok (), t) →
      ∀ k, t.store.has k = s.store.has k ∧ Carried top (infoOf s.store k) (infoOf t.store k) := by
  obtain ⟨g, t0, h1, h2, -, h3⟩ := import_export he hs.tally.good (fun k hk => hs.tally.tidy.leaf k hk) h0
  refine ⟨g, h1, fun t h k => ?_⟩
  unfold restart at h
  rw [M.bind_ok h2, M.bind_ok_iff] at h
  obtain ⟨_, t1, g1, h⟩ := h
  rw [M.bind_ok_iff] at h
  obtain ⟨_, t2, g2, g3⟩ := h
  have ho := importGenesis_outs e g s0
  rw [h2] at ho
  have hp0 : ∀ a, t0.purse a = {} := fun a => by rw [ho.purse]; exact h0.purse a
  obtain ⟨m0, a0⟩ := midway_import hs hp0 h3
  obtain ⟨m1, a1, p1⟩ := midway_purses htop purses t0 t1 m0 a0 (by rw [ho.dust]; exact hb) hd.right g1
  obtain ⟨m2, a2, p2⟩ := midway_actives htop hs active t1 t2 m1 (fun k hk => (hd.active k).1 hk) g2
  have hpurse : ∀ k, s.store.has k = true → t2.purse (addrOf k) = s.purse (addrOf k) := by
    intro j hj
    rw [p2, p1]
    split
    · rfl
    · rename_i hn
      rw [hp0]
      by_contra hne
      exact hn (hd.complete j hj fun e => hne e.symm)
  have hact : ∀ k, (infoOf t2.store k).active = (infoOf s.store k).active := by
    intro j
    have := a2 j
    rw [a1, hd.active] at this
    cases h4 : (infoOf t2.store j).active <;> cases h5 : (infoOf s.store j).active <;> rw [h4, h5] at this <;> simp at this ⊢
  have hc := carried_of hs m2 hpurse hact k
  obtain ⟨hv, -⟩ := refresh_clears g3
  exact ⟨(refresh_has m2.kempt.ledger g3 k).trans (m2.has k), hc.core (congrFun hv k)⟩

/-! ### The property -/

theorem run_kempt (htop : top ≤ 10) (l : List (Env × Op)) (s : State) (h0 : s.start) (ht : Along (totalsOk top) l s) (hx : Along exactOk l s) : Kempt top (run l s) := by
  have h1 : Tally top (run l s) := Along.run (P := Tally top) (fun e op s hs h => step_tally (htop) e op s hs h) l s (start_tally h0) ht
  have h2 : Good (run l s) ∧ Listed (run l s) := Along.run (P := fun s => Good s ∧ Listed s)
    (fun e op s hs h => ⟨step_good e op s hs.1 h.actives.structure, step_listed e op s hs.1 hs.2 h.actives⟩) l s ⟨start_good h0, start_listed h0⟩ ht
  obtain ⟨D, h3⟩ := Along.run (P := fun s => ∃ D, Ledger D s) (fun e op s hs h => step_ledger e op s hs h) l s ⟨_, start_ledger h0⟩ hx
  exact ⟨h1, ledger_self h3, h2.2⟩

/-- After any run of the chain, export and start of a new chain from the three files (referral, bank, profiles) reproduce the network: the
same accounts with the same referrers, referrals, subscriptions and amounts.  All ten levels are compared if nobody was compressed in the midst
of a line of ten levels, and nine otherwise. -/
theorem C102_same_network_partial (top : Nat) (htop : top ≤ 10) (l : List (Env × Op)) (s : State) (h0 : s.start) (ht : Along (totalsOk top) l s) (hx : Along exactOk l s)
    (e : Env) (he : ∀ x k, e.call x k = true) (s0 : State) (hu : Unborn s0) (purses : List (Addr × Purse)) (active : List Key)
    (hd : Described (run l s) purses active)
    (hb : ∀ k, (infoOf (run l s).store k).banished = true → ((run l s).purse (addrOf k)).delegated ≤ s0.dust) :
    ∃ g, exportGenesis (run l s).store = some g ∧ ∀ t, restart e g purses active s0 = (.ok (), t) →
      ∀ k, t.store.has k = (run l s).store.has k ∧ Carried top (infoOf (run l s).store k) (infoOf t.store k) :=
  restart_carried htop he (run_kempt htop l s h0 ht hx) hu hd hb
end

/-! ### Example -/

/-- Account 4 has a subscription and delegates, account 6 below it is to be compressed and wants to move below account 2, and account 8 was banished. -/
def family : List (Env × Op) :=
  [(yes, .top 2), (yes, .register 4 2 true), (yes, .register 6 4 false), (yes, .banished 8 2), (yes, .balance 2 { delegated := 70000000 }),
    (yes, .balance 3 { main := 5000000 }), (yes, .times 6 (some 5000) none none (some 2) 1)]

theorem family_described : Described (run family empty0) [(3, { main := 5000000 }), (2, { delegated := 70000000 })] [4] := by
  refine ⟨?_, fun k hk ha => ?_, fun k => ?_⟩
  · exact (by decide +kernel)
  · have hall : (run family empty0).store.keys.all (fun k => decide ((run family empty0).purse (addrOf k) ≠ {} → addrOf k ∈ [3, 2])) = true := by decide +kernel
    exact of_decide_eq_true (List.all_eq_true.1 hall k (mem_keys_of_has.2 hk)) ha
  · cases hh : (run family empty0).store.has k with
    | false =>
      rw [infoOf_of_not_has hh]
      constructor
      · intro h
        rw [List.mem_singleton] at h
        subst h
        exact absurd hh (by decide +kernel)
      · intro h; cases h
    | true =>
      have hall : (run family empty0).store.keys.all (fun k => decide ((infoOf (run family empty0).store k).active = decide (k = 4))) = true := by decide +kernel
      have := of_decide_eq_true (List.all_eq_true.1 hall k (mem_keys_of_has.2 hh))
      rw [this, List.mem_singleton]
      simp

theorem family_runs : empty0.start ∧ Along (totalsOk 10) family empty0 ∧ Along exactOk family empty0 := by
  have ne : ∀ a b : Key, a ≠ b → a ≠ b := fun _ _ h => h
  refine ⟨rfl, ⟨trivial, ne 4 2 (by decide), ne 6 4 (by decide), ?_, trivial, trivial, ?_, trivial⟩, ⟨rfl, ?_, ?_, ?_, ?_, ?_, ?_, trivial⟩⟩
  · exact ⟨(show (run (family.take 3) empty0).store.has 8 = false by decide +kernel), (show (run (family.take 3) empty0).store.has 2 = true by decide +kernel)⟩
  · exact .inr ⟨(show (infoOf (run (family.take 6) empty0).store 6).banished = false by decide +kernel),
      (show (infoOf (run (family.take 6) empty0).store 6).active = false by decide +kernel)⟩
  · exact ⟨(show (run (family.take 1) empty0).store.has 2 = true by decide +kernel), rfl⟩
  · exact ⟨(show (run (family.take 2) empty0).store.has 4 = true by decide +kernel), rfl⟩
  · exact ⟨(show (run (family.take 3) empty0).store.has 2 = true by decide +kernel), rfl⟩
  · exact (show (setPurse obliging 2 { delegated := 70000000 } (run (family.take 4) empty0)).1 = .ok () by decide +kernel)
  · exact (show (setPurse obliging 3 { main := 5000000 } (run (family.take 5) empty0)).1 = .ok () by decide +kernel)
  · refine ⟨(show (run (family.take 6) empty0).store.has 6 = true by decide +kernel), fun b hb => ?_, .inr (Nat.le_refl 1), fun y hy => by cases hy⟩
    cases hb
    exact (show (run (family.take 6) empty0).store.has 2 = true by decide +kernel)

/-- `C102_same_network_partial` applies to it, and the new chain does start. -/
example : empty0.start ∧ Along (totalsOk 10) family empty0 ∧ Along exactOk family empty0 ∧ Unborn empty0 ∧
    Described (run family empty0) [(3, { main := 5000000 }), (2, { delegated := 70000000 })] [4] ∧
    (∀ k, (infoOf (run family empty0).store k).banished = true → ((run family empty0).purse (addrOf k)).delegated ≤ empty0.dust) ∧
    (exportGenesis (run family empty0).store).any (fun g =>
      match restart yes g [(3, { main := 5000000 }), (2, { delegated := 70000000 })] [4] empty0 with
      | (.ok (), t) => decide ((infoOf t.store 2).tot .delegated 1 = 70000000 ∧ (infoOf t.store 2).tot .coins 2 = 5000000 ∧
          (infoOf t.store 2).tot .active 1 = 1 ∧ (infoOf t.store 2).activeReferrals = [4] ∧ (infoOf t.store 6).compressionAt = some 5000 ∧
          (infoOf t.store 6).transition = some 2 ∧ (infoOf t.store 8).banished = true)
      | _ => false) = true := by
  refine ⟨family_runs.1, family_runs.2.1, family_runs.2.2, ⟨rfl, rfl, fun _ => rfl⟩, family_described, fun k hk => ?_, by decide +kernel⟩
  cases hh : (run family empty0).store.has k with
  | false => rw [infoOf_of_not_has hh] at hk; cases hk
  | true =>
    have hall : (run family empty0).store.keys.all (fun k => decide ((infoOf (run family empty0).store k).banished = true →
      ((run family empty0).purse (addrOf k)).delegated ≤ empty0.dust)) = true := by decide +kernel
    exact of_decide_eq_true (List.all_eq_true.1 hall k (mem_keys_of_has.2 hh)) hk

/-- Account 4 was banished while it delegated 50, which was dust then; later only 0 is dust. -/
def stricter : List (Env × Op) :=
  [(yes, .world 100 100 0 0), (yes, .top 2), (yes, .register 4 2 false), (yes, .balance 2 { delegated := 50 }), (yes, .banish 4), (yes, .world 100 0 0 0)]

/-- The premise about banished accounts is needed: after the limit has been lowered, a banished account that delegates more stays banished on
the running chain, but the import of the balances takes it back into the network. -/
theorem C102_dust_violation : ∃ (l : List (Env × Op)) (s : State), s.start ∧ Along (totalsOk 10) l s ∧ Along exactOk l s ∧
    Unborn empty0 ∧ (run l s).dust = empty0.dust ∧ (infoOf (run l s).store 4).banished = true ∧ (infoOf (run l s).store 2).referrals = [] ∧
    (exportGenesis (run l s).store).any (fun g => match restartFrom yes (run l s) g empty0 with
      | (.ok (), t) => decide ((infoOf t.store 4).banished = false ∧ (infoOf t.store 2).referrals = [4])
      | _ => false) = true := by
  refine ⟨stricter, empty0, rfl, ⟨trivial, trivial, (show (4 : Nat) ≠ 2 by decide), trivial, ?_, trivial, trivial⟩, ⟨trivial, rfl, ?_, ?_, ?_, trivial, trivial⟩,
    ⟨rfl, rfl, fun _ => rfl⟩, by decide +kernel, by decide +kernel, by decide +kernel, by decide +kernel⟩
  · exact (show (infoOf (run (stricter.take 4) empty0).store 4).referrals = [] by decide +kernel)
  · exact ⟨(show (run (stricter.take 2) empty0).store.has 2 = true by decide +kernel), rfl⟩
  · exact (show (setPurse obliging 2 { delegated := 50 } (run (stricter.take 3) empty0)).1 = .ok () by decide +kernel)
  · exact (show (run (stricter.take 4) empty0).store.has 4 = true by decide +kernel)

end Verif.Referral
