import Verif.Referral.Inv
import Verif.Referral.Exec
import Verif.Referral.Fees

/-! C23: the referral structure stays a consistent forest. -/
namespace Verif.Referral
open Relation

/-! ### Specification -/

/-- Every account that has a referrer and is not banished is listed exactly once, namely among the referrals of its referrer, and nobody
is their own ancestor. -/
structure Consistent (st : KV Nat Info) : Prop where
  once : ∀ p, (infoOf st p).referrals.Nodup
  listed : ∀ c p, (infoOf st c).referrer = some p → (infoOf st c).banished = false → c ∈ (infoOf st p).referrals
  nowhere : ∀ c p, c ∈ (infoOf st p).referrals → (infoOf st c).referrer = some p ∧ (infoOf st c).banished = false
  acyclic : ∀ c n, ancestor st c n ≠ some c

/-- What is asked of the steps: nobody is registered as their own referrer, and a genesis file lists banished accounts that are not
otherwise listed, after their former referrers. -/
def structureOk : Op → State → Prop
  | .child p c, _ => c ≠ p
  | .register c p _, _ => c ≠ p
  | .banished k f, s => s.store.has k = false ∧ s.store.has f = true
  | _, _ => True

/-! ### Proofs -/

theorem tx_good {α : Type} {m : Act α} {s : State} (hs : Good s) (h : ∀ a t, m s = (.ok a, t) → Good t) : Good (M.tx m s) := by
  rcases M.tx_cases m s with ⟨x, hx⟩ | ⟨-, hx⟩
  · exact h x _ hx
  · rw [hx]; exact hs

theorem register_good {e : Env} {c p : Key} {a : Bool} {s t : State} (hs : Good s) (hne : c ≠ p)
    (h : register e c p a s = (.ok (), t)) : Good t := by
  unfold register at h
  rw [M.bind_ok_iff] at h
  obtain ⟨_, s1, h1, h⟩ := h
  have g1 := appendChild_good (e := e) (skip := false) (setc := true) hs hne
  rw [h1] at g1
  rw [M.get_bind_ok, M.bind_ok_iff] at h
  obtain ⟨_, s2, h2, h⟩ := h
  have q := (Still.request _).of h2
  have g2 : Good s2 := by unfold Good; rw [q.store]; exact g1
  split at h
  · have := setActive_good (e := e) (k := c) (value := true) (check := true) g2
    rw [h] at this; exact this
  · simp at h; rw [← h]; exact g2

theorem returnIfBanished_good {e : Env} {k : Key} {s t : State} (hs : Good s) (h : returnIfBanished e k s = (.ok (), t)) : Good t := by
  unfold returnIfBanished at h
  rw [M.get_bind_ok] at h
  split at h
  · rename_i hb
    have := comeBack_good (e := e) hs hb
    rw [h] at this; exact this
  · simp at h; rw [← h]; exact hs

theorem subscribe_good {e : Env} {k : Key} {s t : State} (hs : Good s) (h : subscribe e k s = (.ok (), t)) : Good t := by
  unfold subscribe at h
  rw [M.bind_ok_iff] at h
  obtain ⟨_, s1, h1, h⟩ := h
  have g1 : Good s1 := returnIfBanished_good hs h1
  have := setActive_good (e := e) (k := k) (value := true) (check := true) g1
  rw [h] at this; exact this

/-- A stored account without referrer and referrals -/
theorem addTopLevel_good {e : Env} {k : Key} {s t : State} (hs : Good s) (h : addTopLevel e k s = (.ok (), t)) : Good t := by
  unfold addTopLevel at h
  rw [recover_ok_iff, M.get_bind_ok, M.errIf_bind_ok] at h
  obtain ⟨hk, h⟩ := h
  obtain ⟨b, t', h1, h2, -⟩ := bunch_ok h
  rw [M.bind_ok_iff] at h1
  obtain ⟨_, s1, h3, h1⟩ := h1
  simp at h1
  obtain ⟨rfl, rfl⟩ := h1
  have e1 : s1.work = s.store.set k (newInfo none (s.balance k) (s.delegated k)) := by
    unfold put at h3; simp at h3; rw [← h3]; rfl
  have hv : view t.store = upd (view s.store) k (core (newInfo none (s.balance k) (s.delegated k))) := by
    rw [h2 rfl, e1, view_set]
  have hg : ∀ j, s.store.has j = true → t.store.has j = true := by
    intro j hj
    rw [h2 rfl, e1, has_set, hj]; simp
  have hk0 : view s.store k = core {} := by unfold view; rw [infoOf_of_not_has hk]
  unfold Good
  rw [hv]
  refine Forest.same hs ?_ ?_ ?_ hg <;>
  · intro j
    by_cases hj : j = k
    · subst hj; rw [upd_self, hk0]; rfl
    · rw [upd_ne _ _ hj]

theorem importTimes_good {k : Key} {c b d : Option Int} {x : Option Key} {n : Nat} {s t : State} (hs : Good s)
    (h : importTimes k c b d x n s = (.ok (), t)) : Good t := by
  unfold importTimes at h
  simp at h
  rw [← h]
  unfold Good
  refine Forest.same (I := view s.store) hs ?_ ?_ ?_ ?_
  · intro j
    show (view (s.store.set k _) j).referrer = _
    rw [view_set]
    by_cases hj : j = k
    · subst hj; rw [upd_self]; rfl
    · rw [upd_ne _ _ hj]
  · intro j
    show (view (s.store.set k _) j).referrals = _
    rw [view_set]
    by_cases hj : j = k
    · subst hj; rw [upd_self]; rfl
    · rw [upd_ne _ _ hj]
  · intro j
    show (view (s.store.set k _) j).banished = _
    rw [view_set]
    by_cases hj : j = k
    · subst hj; rw [upd_self]; rfl
    · rw [upd_ne _ _ hj]
  · intro j hj
    show (s.store.set k _).has j = true
    rw [has_set, hj]; simp

theorem importBanished_good {k f : Key} {s t : State} (hs : Good s) (hk : s.store.has k = false) (hf : s.store.has f = true)
    (h : importBanished k (some f) s = (.ok (), t)) : Good t := by
  unfold importBanished at h
  simp at h
  rw [← h]
  have hk0 : view s.store k = core {} := by unfold view; rw [infoOf_of_not_has hk]
  have hne : k ≠ f := by rintro rfl; rw [hk] at hf; cases hf
  have hup : ∀ x, (view s.store x).referrer ≠ some k := by
    intro x hx
    have := hs.here x k hx
    rw [hk] at this; cases this
  unfold Good
  show Forest (treeOf (view (s.store.set k _))) (fun j => (s.store.set k _).has j = true)
  rw [view_set]
  generalize hw : (core _ : Info) = w
  have w1 : w.referrer = some f := by rw [← hw]; rfl
  have w2 : w.referrals = [] := by rw [← hw]; rfl
  have w3 : w.banished = true := by rw [← hw]; rfl
  have kid : ∀ j, (upd (view s.store) k w j).referrals = (view s.store j).referrals := by
    intro j
    by_cases hj : j = k
    · subst hj; rw [upd_self, w2, hk0]; rfl
    · rw [upd_ne _ _ hj]
  refine ⟨?_, ?_, ?_, ?_⟩
  · intro p
    show (upd (view s.store) k w p).referrals.Nodup
    rw [kid]; exact hs.nodup p
  · intro p c
    show c ∈ (upd (view s.store) k w p).referrals ↔ (upd (view s.store) k w c).referrer = some p ∧ (upd (view s.store) k w c).banished = false
    rw [kid]
    by_cases hc : c = k
    · subst hc
      rw [upd_self, w3]
      simp only [Bool.true_eq_false, and_false, iff_false]
      intro hm
      have : (view s.store c).referrer = some p := ((hs.mem p c).1 hm).1
      rw [hk0] at this; cases this
    · rw [upd_ne _ _ hc]; exact hs.mem p c
  · refine acc_of_move (s := k) (p := f) hs.acc ?_ ?_ ?_
    · intro hr
      rcases ReflTransGen.cases_head hr with e | ⟨y, hy, -⟩
      · exact hne e
      · exact hup y hy
    · intro q hq
      have : (upd (view s.store) k w k).referrer = some q := hq
      rw [upd_self, w1] at this
      injection this with this; exact this.symm
    · intro x hx
      show (upd (view s.store) k w x).referrer = _
      rw [upd_ne _ _ hx]; rfl
  · intro c p hc
    have : (upd (view s.store) k w c).referrer = some p := hc
    rw [has_set]
    by_cases hck : c = k
    · subst hck
      rw [upd_self, w1] at this
      injection this with this; subst this
      rw [hf]; simp
    · rw [upd_ne _ _ hck] at this
      rw [hs.here c p this]; simp

theorem step_good (e : Env) (op : Op) (s : State) (hs : Good s) (h : structureOk op s) : Good (step e op s) := by
  have from2 : ∀ {m : Act Unit} {t : State}, Good (m s).2 → m s = (.ok (), t) → Good t := by
    intro m t g h; rw [h] at g; exact g
  cases op with
  | top k => exact tx_good hs fun _ t h => addTopLevel_good hs h
  | child p c => exact tx_good hs fun _ t h' => from2 (appendChild_good hs h) h'
  | banished k f => exact tx_good hs fun _ t h' => importBanished_good hs h.1 h.2 h'
  | times k c b d x n => exact tx_good hs fun _ t h => importTimes_good hs h
  | activate k => exact tx_good hs fun _ t h => from2 (setActive_good hs) h
  | register c p a => exact tx_good hs fun _ t h' => register_good hs h h'
  | comeBack k => exact tx_good hs fun _ t h => returnIfBanished_good hs h
  | subscribe k => exact tx_good hs fun _ t h => subscribe_good hs h
  | expire k => exact setActive_good hs
  | balance a p => exact setPurse_good hs
  | request k d => exact tx_good hs fun _ t h => requestTransition_good hs h
  | resolve g k b => exact tx_good hs fun _ t h => resolveTransition_good hs h
  | downgrade k => exact performDowngrade_good hs
  | compression k => exact performCompression_good hs
  | timeout k => exact cancelTransition_good hs
  | banish k => exact banish_good hs
  | world n d p c => exact hs

/-- The chain before genesis -/
def State.start (s : State) : Prop := s.store = KV.empty

theorem start_good {s : State} (h : s.start) : Good s := by
  unfold State.start at h
  have hv : ∀ k, view s.store k = core {} := by
    intro k; unfold view; rw [h, infoOf_of_not_has (by simp [KV.has])]
  refine ⟨?_, ?_, ?_, ?_⟩
  · intro p; show (view s.store p).referrals.Nodup; rw [hv]; simp [core]
  · intro p c
    show c ∈ (view s.store p).referrals ↔ (view s.store c).referrer = _ ∧ _
    rw [hv, hv]; simp [core]
  · intro c
    refine ⟨c, fun y hy => ?_⟩
    have : (view s.store c).referrer = some y := hy
    rw [hv] at this; cases this
  · intro c p hc
    have : (view s.store c).referrer = some p := hc
    rw [hv] at this; cases this

theorem ancestor_trans {st : KV Nat Info} {c : Key} : ∀ (n : Nat) (p : Key), ancestor st c n = some p →
    TransGen (treeOf (view st)).over p c := by
  intro n
  induction n with
  | zero => intro p h; exact TransGen.single h
  | succ n ih =>
    intro p h
    unfold ancestor at h
    rw [Option.bind_eq_some_iff] at h
    obtain ⟨a, ha, h⟩ := h
    exact TransGen.head h (ih a ha)

theorem Good.consistent {s : State} (h : Good s) : Consistent s.store := by
  refine ⟨h.nodup, fun c p h1 h2 => (h.mem p c).2 ⟨h1, h2⟩, fun c p hc => (h.mem p c).1 hc, ?_⟩
  intro c n hn
  have h1 := ancestor_trans n c hn
  have : ∀ x, Acc (TransGen (treeOf (view s.store)).over) x → x = c → False := by
    intro x hx
    induction hx with
    | intro x _ ih => intro hxc; subst hxc; exact ih x h1 rfl
  exact this c (h.acc c).transGen rfl

end Verif.Referral
