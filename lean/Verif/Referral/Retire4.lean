import Verif.Referral.Retire3
import Verif.Referral.Query
import Verif.Referral.Props2

/-! Properties C74 and C75: accounts that are out of business, and the index of high statuses; executions. -/
namespace Verif.Referral
open Relation

/-! ### Specification -/

/-- What is asked of the steps after genesis: nobody is registered as their own referrer; when a balance changes, no compression is
overdue; and the task of banishment runs for accounts that have a date of banishment. -/
def orderlyOk : Op → State → Prop
  | .top _, _ => False
  | .child _ _, _ => False
  | .banished _ _, _ => False
  | .times _ _ _ _ _ _, _ => False
  | .activate _, _ => False
  | .register c p _, _ => c ≠ p
  | .balance _ _, s => OnTime s
  | .request _ _, s => OnTime s
  | .banish k, s => (infoOf s.store k).banishmentAt ≠ none
  | _, _ => True

/-- Steps that are not undone when they fail do not fail, but for the callbacks of other modules. -/
def bodiesOk : Op → State → Prop
  | .expire k, s => (setActive obliging k false true s).1 = .ok ()
  | .balance a p, s => (setPurse obliging a p s).1 = .ok ()
  | .downgrade k, s => (performDowngrade obliging k s).1 = .ok ()
  | .compression k, s => (performCompression obliging k s).1 = .ok ()
  | .banish k, s => (banish obliging k s).1 = .ok ()
  | _, _ => True

/-- Steps of genesis -/
def genesisOk : Op → State → Prop
  | .top _, _ => True
  | .child p c, _ => c ≠ p
  | .banished k f, s => s.store.has k = false ∧ s.store.has f = true
  | .times _ _ _ _ _ _, _ => True
  | .activate _, _ => True
  | _, _ => False

/-! ### Proofs -/

theorem orderlyOk.structure {op : Op} {s : State} (h : orderlyOk op s) : structureOk op s := by
  cases op <;> first | exact h | trivial

theorem genesisOk.structure {op : Op} {s : State} (h : genesisOk op s) : structureOk op s := by
  cases op <;> first | exact h | trivial

theorem step_held {x : Prop} (e : Env) (op : Op) (s : State) (hg : Good s) (hs : HeldS Settled x s) (h : orderlyOk op s)
    (hx : x → bodiesOk op s) : HeldS Settled x (step e op s) := by
  cases op with
  | top k => exact h.elim
  | child p c => exact h.elim
  | banished k f => exact h.elim
  | times k c b d t n => exact h.elim
  | activate k => exact h.elim
  | register c p a => exact tx_held hs fun _ t h' => register_held hg h hs h'
  | comeBack k => exact tx_held hs fun _ t h' => returnIfBanished_held hs h'
  | subscribe k => exact tx_held hs fun _ t h' => subscribe_held hg hs h'
  | expire k => exact expire_held hg hs hx
  | balance a p => exact (setPurse_held (hs.timely h) hx).settled
  | request k d => exact tx_held hs fun _ t h' => requestTransition_held hs h h'
  | resolve g k b => exact tx_held hs fun _ t h' => resolveTransition_held hs h'
  | downgrade k => exact performDowngrade_held hs hx
  | compression k => exact performCompression_held hg hs hx
  | timeout k => exact cancelTransition_held hs
  | banish k => exact banish_held hs h hx
  | world n d p c => exact hs

theorem run_held {x : Prop} : ∀ (l : List (Env × Op)) (s : State), Good s → HeldS Settled x s → Along orderlyOk l s → (x → Along bodiesOk l s) →
    HeldS Settled x (run l s)
  | [], _, _, hs, _, _ => hs
  | (e, op) :: l, s, hg, hs, h, hx =>
    run_held l (step e op s) (step_good e op s hg h.1.structure) (step_held e op s hg hs h.1 fun y => (hx y).1) h.2 fun y => (hx y).2

/-- The index at genesis -/
def Indexed (s : State) : Prop := HeldS (fun _ => True) True s

theorem step_indexed (e : Env) (op : Op) (s : State) (hs : Indexed s) (h : genesisOk op s) : Indexed (step e op s) := by
  cases op with
  | top k => exact tx_held hs fun _ t h' => addTopLevel_held trivial lenient_true hs h'
  | child p c => exact tx_held hs fun _ t h' => appendChild_held lenient_true hs trivial (fun _ _ _ _ => trivial) h'
  | banished k f =>
    refine tx_held hs fun _ t h' => ?_
    unfold importBanished at h'
    simp at h'
    rw [← h']
    refine ⟨fun _ => trivial, fun _ => ⟨(hs.2 trivial).nodup, fun n j => ?_⟩⟩
    dsimp only
    rw [infoOf_set, (hs.2 trivial).mem n j]
    by_cases hj : j = k
    · rw [if_pos hj, hj, infoOf_of_not_has h.1]
    · rw [if_neg hj]
  | times k c b d t n =>
    refine tx_held hs fun _ t' h' => ?_
    unfold importTimes at h'
    simp at h'
    rw [← h']
    refine ⟨fun _ => trivial, fun _ => ?_⟩
    dsimp only
    by_cases hn : (infoOf s.store k).status = n
    · rw [if_pos hn]
      refine ⟨(hs.2 trivial).nodup, fun m j => ?_⟩
      rw [infoOf_set, (hs.2 trivial).mem m j]
      by_cases hj : j = k
      · rw [if_pos hj, hj, hn]
      · rw [if_neg hj]
    · rw [if_neg hn]
      have := (hs.2 trivial).reindex (k := k) (old := (infoOf s.store k).status) (new := n) rfl
      refine ⟨this.nodup, fun m j => ?_⟩
      rw [this.mem m j, infoOf_set]
      by_cases hj : j = k
      · rw [if_pos hj, if_pos hj]
      · rw [if_neg hj, if_neg hj]
  | activate k =>
    refine tx_held hs fun _ t h' => ?_
    exact bunch_held_ok (.activeBody _ _ _) hs h' fun b t ht =>
      activeBody_held (s := s.fresh) lenient_true hs.fresh (fun _ _ _ _ _ => trivial) (fun _ _ _ _ _ _ => trivial) ht
  | register c p a => exact h.elim
  | comeBack k => exact h.elim
  | subscribe k => exact h.elim
  | expire k => exact h.elim
  | balance a p => exact h.elim
  | request k d => exact h.elim
  | resolve g k b => exact h.elim
  | downgrade k => exact h.elim
  | compression k => exact h.elim
  | timeout k => exact h.elim
  | banish k => exact h.elim
  | world n d p c => exact h.elim

theorem genesis_indexed {l : List (Env × Op)} {s : State} (h0 : s.start) (hi : s.index = []) (h : Along genesisOk l s) :
    Good (run l s) ∧ Indexed (run l s) := by
  refine Along.run (P := fun s => Good s ∧ Indexed s) (fun e op s hs h => ⟨step_good e op s hs.1 h.structure, step_indexed e op s hs.2 h⟩) l s
    ⟨start_good h0, fun _ => trivial, fun _ => ?_⟩ h
  rw [hi]
  have h0 : s.store = KV.empty := h0
  refine ⟨List.nodup_nil, fun n j => ?_⟩
  rw [h0, infoOf_of_not_has rfl]
  constructor
  · intro hc; cases hc
  · rintro ⟨h5, e⟩
    have e : 0 = n := e
    omega

/-! ### Theorems -/

/-- C74 for genesis files in which all records are in order, and executions in which tasks run on time. -/
theorem C74_out_of_business_partial (l0 l : List (Env × Op)) (s : State) (h0 : s.start) (h1 : Along structureOk l0 s)
    (hf : ∀ k, Settled (infoOf (run l0 s).store k)) (h : Along orderlyOk l (run l0 s)) (k : Key) :
    let v := infoOf (run l (run l0 s)).store k
    (v.banished = true ∨ v.banishmentAt ≠ none ∨ (v.referrer ≠ none ∧ v.active = false ∧ v.compressionAt = none)) →
      v.referrer ≠ none ∧ v.active = false ∧ v.compressionAt = none ∧ v.referrals = [] ∧ v.activeReferrals = [] ∧ v.status < 5 := by
  have hg := Along.run step_good l0 s (start_good h0) h1
  have hs : HeldS Settled False (run l0 s) := ⟨hf, False.elim⟩
  have := (run_held l _ hg hs h False.elim).1 k
  intro v hv
  have hr : Retired v := by
    rcases hv with hv | hv | hv
    · exact this.banished hv
    · exact this.awaiting hv
    · exact hv
  exact ⟨hr.1, hr.2.1, hr.2.2, this.retired hr⟩

/-- C74, the other way round: an account with referrals is not banished, whenever its task runs. -/
theorem C74_banished_without_referrals_partial (l0 l : List (Env × Op)) (s : State) (h0 : s.start) (h1 : Along structureOk l0 s)
    (hf : ∀ k, Settled (infoOf (run l0 s).store k)) (h : Along orderlyOk l (run l0 s)) (k : Key)
    (hk : (infoOf (run l (run l0 s)).store k).banishmentAt ≠ none) :
    ∀ c, (infoOf (run l (run l0 s)).store c).referrer = some k → (infoOf (run l (run l0 s)).store c).banished = true := by
  intro c hc
  have hg : Good (run l (run l0 s)) := by
    have hg := Along.run step_good l0 s (start_good h0) h1
    exact Along.run (ok := orderlyOk) (fun e op s hs h => step_good e op s hs h.structure) l _ hg h
  have hr := (C74_out_of_business_partial l0 l s h0 h1 hf h k (.inr (.inl hk))).2.2.2.1
  cases hb : (infoOf (run l (run l0 s)).store c).banished with
  | true => rfl
  | false =>
    have : c ∈ (infoOf (run l (run l0 s)).store k).referrals := (hg.mem k c).2 ⟨hc, hb⟩
    rw [hr] at this
    cases this

/-- C24 for genesis files in which all records are in order, and executions in which tasks run on time. -/
theorem C24_orderly_partial (top : Nat) (htop : top ≤ 10) (l0 l : List (Env × Op)) (s : State) (h0 : s.start) (h1 : Along (totalsOk top) l0 s)
    (hf : ∀ k, Settled (infoOf (run l0 s).store k)) (h : Along (fun op s => orderlyOk op s ∧ ∀ k, op = .compression k → top ≤ 9 ∨ Shallow s.store k) l (run l0 s)) :
    TotalsMatch top (run l (run l0 s)).store := by
  have ht := Along.run (step_tally htop) l0 s (start_tally h0) h1
  refine (Along.run (P := fun s => Tally top s ∧ HeldS Settled False s) ?_ l _ ⟨ht, hf, False.elim⟩ h).1.match
  rintro e op s ⟨ht, hs⟩ ⟨ho, hc⟩
  refine ⟨step_tally htop e op s ht ?_, step_held e op s ht.good hs ho False.elim⟩
  cases op with
  | banish k => exact ((hs.1 k).retired ((hs.1 k).awaiting ho)).1
  | compression k => exact hc k rfl
  | register c p a => exact ho
  | top k => exact ho.elim
  | child p c => exact ho.elim
  | banished k f => exact ho.elim
  | times k c b d t n => exact ho.elim
  | activate k => exact ho.elim
  | _ => trivial

/-- C75 for genesis files in which all records are in order, and executions in which tasks run on time and do not fail. -/
theorem C75_all_with_status_partial (l0 l : List (Env × Op)) (s : State) (h0 : s.start) (hi : s.index = []) (h1 : Along genesisOk l0 s)
    (hf : ∀ k, Settled (infoOf (run l0 s).store k)) (h : Along (fun op s => orderlyOk op s ∧ bodiesOk op s) l (run l0 s)) (n : Nat)
    (h5 : 5 ≤ n) (h9 : n ≤ 9) (h8 : n ≠ 8) :
    ∃ r, allWithStatus (run l (run l0 s)) n = some r ∧ r.Nodup ∧ ∀ k, k ∈ r ↔ (infoOf (run l (run l0 s)).store k).status = n := by
  obtain ⟨hg, hx⟩ := genesis_indexed h0 hi h1
  have split : ∀ (l : List (Env × Op)) (s : State), Along (fun op s => orderlyOk op s ∧ bodiesOk op s) l s → Along orderlyOk l s ∧ Along bodiesOk l s := by
    intro l
    induction l with
    | nil => intro _ _; exact ⟨trivial, trivial⟩
    | cons a l ih => rintro s ⟨⟨h1, h2⟩, h3⟩; exact ⟨⟨h1, (ih _ h3).1⟩, h2, (ih _ h3).2⟩
  obtain ⟨ha, hb⟩ := split l _ h
  have hs := (run_held (x := True) l _ hg ⟨hf, hx.2⟩ ha fun _ => hb).2 trivial
  generalize run l (run l0 s) = t at hs
  unfold allWithStatus
  have hv : validStatus n = true := by
    unfold validStatus
    simp
    omega
  rw [hv]
  simp only [Bool.not_true, Bool.false_eq_true, if_false]
  rw [if_neg (by omega)]
  refine ⟨_, rfl, ?_, fun k => ?_⟩
  · refine List.Nodup.map_on ?_ (hs.nodup.filter _)
    rintro ⟨a, b⟩ h1 ⟨c, d⟩ h2 (e : b = d)
    have e1 : a = n := by simpa using (List.mem_filter.1 h1).2
    have e2 : c = n := by simpa using (List.mem_filter.1 h2).2
    rw [e, e1, e2]
  · rw [List.mem_map]
    constructor
    · rintro ⟨⟨a, b⟩, h1, e⟩
      obtain ⟨h1, h2⟩ := List.mem_filter.1 h1
      have e2 : a = n := by simpa using h2
      have e : b = k := e
      rw [← e, ((hs.mem a b).1 h1).2, e2]
    · intro e
      exact ⟨(n, k), List.mem_filter.2 ⟨(hs.mem n k).2 ⟨h5, e⟩, by simp⟩, rfl⟩

/-- C75: other statuses are refused. -/
theorem C75_refused (s : State) (n : Nat) : allWithStatus s n = none ↔ n < 5 ∨ n = 8 ∨ 9 < n := by
  unfold allWithStatus validStatus
  by_cases h1 : n < 5
  · simp [h1]
  · by_cases h8 : n = 8
    · subst h8; simp
    · by_cases h9 : 9 < n
      · simp [h9, h8]
      · have : (decide (1 ≤ n) && decide (n ≤ 9) && n != 8) = true := by
          simp
          omega
        rw [this]
        simp [h1, h8, h9]

end Verif.Referral
