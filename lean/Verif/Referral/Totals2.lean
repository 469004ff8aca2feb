import Verif.Referral.Totals

/-! C24: the stored totals are the totals of the tree. -/
namespace Verif.Referral
open Relation

/-! ### Specification -/

/-- The accounts at depth `L` below `a` -/
def below (st : KV Nat Info) (a : Key) (L : Nat) : List Key :=
  st.keys.filter fun c => decide (ancestor st c (L - 1) = some a) && !(infoOf st c).banished

/-- For every level up to `top` the stored amounts are the sums of the own amounts of the accounts at that depth, and the own number of
active accounts is one for active accounts and zero for others. -/
structure TotalsMatch (top : Nat) (st : KV Nat Info) : Prop where
  levels : ∀ a w L, 1 ≤ L → L ≤ top → (infoOf st a).tot w L = ((below st a L).map fun c => (infoOf st c).tot w 0).sum
  active : ∀ a, (infoOf st a).tot .active 0 = if (infoOf st a).active then 1 else 0

/-- Nobody above `k` is ten levels or more above somebody present below `k`. -/
def Shallow (st : KV Nat Info) (k : Key) : Prop :=
  ∀ n a m c, ancestor st k n = some a → ancestor st c m = some k → (infoOf st c).banished = false → (n + 1) + (m + 1) ≤ 9

/-- What is asked of the steps: those of `structureOk`; nobody in the genesis file has a banished referrer; banished accounts in the genesis
file are not active, and banished and active accounts have no compression time; an account with referrals is not banished; and if level 10 is
to be right, nobody is compressed in the midst of a line of ten levels or more. -/
def totalsOk (top : Nat) : Op → State → Prop
  | .child p c, s => c ≠ p ∧ (infoOf s.store p).banished = false
  | .register c p _, _ => c ≠ p
  | .banished k f, s => s.store.has k = false ∧ s.store.has f = true
  | .times k c _ _ _ _, s => c = none ∨ ((infoOf s.store k).banished = false ∧ (infoOf s.store k).active = false)
  | .activate k, s => (infoOf s.store k).banished = false
  | .banish k, s => (infoOf s.store k).referrals = []
  | .compression k, s => top ≤ 9 ∨ Shallow s.store k
  | _, _ => True

/-! ### Proofs -/

theorem tx_tally {top : Nat} {α : Type} {m : Act α} {s : State} (hs : Tally top s) (h : ∀ a t, m s = (.ok a, t) → Tally top t) :
    Tally top (M.tx m s) := by
  rcases M.tx_cases m s with ⟨x, hx⟩ | ⟨-, hx⟩
  · exact h x _ hx
  · rw [hx]; exact hs

theorem appendChild_banished {e : Env} {p c : Key} {skip setc : Bool} {s t : State} (h : appendChild e p c skip setc s = (.ok (), t)) :
    (infoOf t.store c).banished = false := by
  unfold appendChild at h
  rw [M.get_bind_ok, M.errIf_bind_ok] at h
  obtain ⟨-, h⟩ := h
  obtain ⟨b, t', h1, h2, -⟩ := bunch_ok h
  obtain ⟨rfl, -, -, -, hv⟩ := appendBody_ok h1
  have : (view t.store c).banished = false := by
    rw [h2 rfl, hv, climbV_all (π := Info.banished) (g := bump _ (addKid _)) (bump_all (fun _ _ => rfl) (fun _ => rfl)), upd_self]
    unfold freshInfo; cases setc <;> rfl
  exact this

theorem comeBack_banished {e : Env} {k : Key} {s t : State} (h : comeBack e k s = (.ok (), t)) : (infoOf t.store k).banished = false := by
  obtain ⟨b, t', h1, h2, -⟩ := bunch_ok h
  obtain ⟨rfl, parent, n, -, hv⟩ := comeBackBody_ok h1
  have : (view t.store k).banished = false := by
    rw [h2 rfl, hv, climbV_all (π := Info.banished) (g := bump _ (addKid _)) (bump_all (fun _ _ => rfl) (fun _ => rfl)), upd_self]
  exact this

theorem register_tally {top : Nat} (htop : top ≤ 10) {e : Env} {c p : Key} {a : Bool} {s t : State} (hs : Tally top s) (hne : c ≠ p)
    (h : register e c p a s = (.ok (), t)) : Tally top t := by
  unfold register at h
  rw [M.bind_ok_iff] at h
  obtain ⟨_, s1, h1, h⟩ := h
  have g1 := appendChild_tally htop (e := e) (skip := false) (setc := true) hs hne (by intro h; cases h)
  rw [h1] at g1
  have b1 := appendChild_banished h1
  rw [M.get_bind_ok, M.bind_ok_iff] at h
  obtain ⟨_, s2, h2, h⟩ := h
  have q := (Still.request _).of h2
  have g2 : Tally top s2 := by unfold Tally; rw [q.store]; exact g1
  split at h
  · have := setActive_tally htop (e := e) (k := c) (value := true) (check := true) g2 (fun _ => by rw [q.store]; exact b1)
    rw [h] at this; exact this
  · simp at h; rw [← h]; exact g2

theorem returnIfBanished_tally {top : Nat} (htop : top ≤ 10) {e : Env} {k : Key} {s t : State} (hs : Tally top s)
    (h : returnIfBanished e k s = (.ok (), t)) : Tally top t ∧ (infoOf t.store k).banished = false := by
  unfold returnIfBanished at h
  rw [M.get_bind_ok] at h
  split at h
  · rename_i hb
    have := comeBack_tally htop (e := e) hs hb
    rw [h] at this; exact ⟨this, comeBack_banished h⟩
  · rename_i hb
    simp at h; rw [← h]; exact ⟨hs, by simpa using hb⟩

theorem subscribe_tally {top : Nat} (htop : top ≤ 10) {e : Env} {k : Key} {s t : State} (hs : Tally top s)
    (h : subscribe e k s = (.ok (), t)) : Tally top t := by
  unfold subscribe at h
  rw [M.bind_ok_iff] at h
  obtain ⟨_, s1, h1, h⟩ := h
  obtain ⟨g1, b1⟩ := returnIfBanished_tally htop hs h1
  have := setActive_tally htop (e := e) (k := k) (value := true) (check := true) g1 (fun _ => b1)
  rw [h] at this; exact this

theorem Neat.put {top : Nat} {P P' : Key → Prop} {I : View} (h : Neat top P I) {k : Key} {w : Info} (hk : ∀ a, k ∉ (I a).referrals)
    (w1 : w.referrals = (I k).referrals) (w2 : ∀ x l, 1 ≤ l → w.tot x l = (I k).tot x l)
    (w3 : w.banished = true → w.referrals = [] ∧ w.active = false ∧ w.compressionAt = none ∧ w.referrer ≠ none)
    (w4 : w.active = true → w.compressionAt = none) (w5 : w.tot .active 0 = if w.active then 1 else 0)
    (hf : Forest (treeOf (upd I k w)) P') : Neat top P' (upd I k w) := by
  refine ⟨hf, h.tidy.upd w3 w4 w5, ?_⟩
  intro a x l hl
  rw [defect_upd h.forest.nodup w1, h.sums a x l hl, if_neg (hk a), w2 _ _ (by omega)]
  simp

theorem addTopLevel_tally {top : Nat} {e : Env} {k : Key} {s t : State} (hs : Tally top s) (h : addTopLevel e k s = (.ok (), t)) :
    Tally top t := by
  have hg := addTopLevel_good hs.good h
  unfold addTopLevel at h
  rw [recover_ok_iff, M.get_bind_ok, M.errIf_bind_ok] at h
  obtain ⟨hk, h⟩ := h
  obtain ⟨b, t', h1, h2, -⟩ := bunch_ok h
  rw [M.bind_ok_iff] at h1
  obtain ⟨_, s1, h3, h1⟩ := h1
  simp at h1
  obtain ⟨rfl, rfl⟩ := h1
  have e1 : s1.work = s.store.set k (newInfo none (s.balance k) (s.delegated k)) := by
    unfold put at h3; simp at h3; rw [← h3]; rfl
  have hv : view t.store = upd (view s.store) k (core (newInfo none (s.balance k) (s.delegated k))) := by
    rw [h2 rfl, e1, view_set]
  have hk0 : view s.store k = core {} := by unfold view; rw [infoOf_of_not_has hk]
  unfold Good at hg
  unfold Tally
  rw [hv] at hg ⊢
  refine Neat.put hs (hs.forest.unlisted (.inr (by rw [hk0]; rfl))) (by rw [hk0]; rfl) ?_ ?_ ?_ rfl hg
  · intro x l hl
    rw [hk0]
    show (if l = 0 then _ else (0 : Int)) = 0
    rw [if_neg (by omega)]
  · intro h; cases h
  · intro h; cases h

theorem importTimes_tally {top : Nat} {k : Key} {c b d : Option Int} {x : Option Key} {n : Nat} {s t : State} (hs : Tally top s)
    (hc : c = none ∨ ((infoOf s.store k).banished = false ∧ (infoOf s.store k).active = false))
    (h : importTimes k c b d x n s = (.ok (), t)) : Tally top t := by
  have hg := importTimes_good hs.good h
  unfold importTimes at h
  simp at h
  have hv : view t.store = upd (view s.store) k { view s.store k with compressionAt := c, banishmentAt := b, transition := x } := by
    rw [← h]
    show view (s.store.set k _) = _
    rw [view_set]; rfl
  unfold Good at hg
  unfold Tally
  rw [hv] at hg ⊢
  refine ⟨hg, hs.tidy.upd ?_ ?_ (hs.tidy.own k), ?_⟩
  · intro hb
    refine ⟨hs.tidy.leaf k hb, hs.tidy.asleep k hb, ?_, hs.tidy.below k hb⟩
    rcases hc with hc | hc
    · exact hc
    · have : (infoOf s.store k).banished = true := hb
      rw [hc.1] at this; cases this
  · intro ha
    rcases hc with hc | hc
    · exact hc
    · have : (infoOf s.store k).active = true := ha
      rw [hc.2] at this; cases this
  · intro a w l hl
    rw [defect_same (w := { view s.store k with compressionAt := c, banishmentAt := b, transition := x }) hs.forest.nodup rfl rfl]
    exact hs.sums a w l hl

theorem importBanished_tally {top : Nat} {k f : Key} {s t : State} (hs : Tally top s) (hk : s.store.has k = false) (hf : s.store.has f = true)
    (h : importBanished k (some f) s = (.ok (), t)) : Tally top t := by
  have hg := importBanished_good hs.good hk hf h
  unfold importBanished at h
  simp at h
  have hk0 : view s.store k = core {} := by unfold view; rw [infoOf_of_not_has hk]
  have hv : view t.store = upd (view s.store) k (core
      { referrer := some f
        banished := true
        tot := fun w l => if l = 0 then (match w with | What.coins => s.balance k | What.delegated => s.delegated k | What.active => 0) else 0 }) := by
    rw [← h]
    show view (s.store.set k _) = _
    rw [view_set]; rfl
  unfold Good at hg
  unfold Tally
  rw [hv] at hg ⊢
  refine Neat.put hs (hs.forest.unlisted (.inr (by rw [hk0]; rfl))) (by rw [hk0]; rfl) ?_ ?_ ?_ rfl hg
  · intro x l hl
    rw [hk0]
    show (if l = 0 then _ else (0 : Int)) = 0
    rw [if_neg (by omega)]
  · intro _; exact ⟨rfl, rfl, rfl, by simp⟩
  · intro h; cases h

/-! #### From neighbouring levels to the whole tree -/

/-- The accounts at depth `l + 1` below `a`, following the lists of referrals -/
def depth (I : View) : Nat → Key → List Key
  | 0, a => (I a).referrals
  | l + 1, a => (I a).referrals.flatMap (depth I l)

theorem sum_depth {top : Nat} {I : View} (h : Sums top I) (w : What) : ∀ (l : Nat) (a : Key), l < top →
    (I a).tot w (l + 1) = ((depth I l a).map fun c => (I c).tot w 0).sum := by
  intro l
  induction l with
  | zero =>
    intro a hl
    have := h a w 0 hl
    unfold defect kidSum at this
    show _ = ((I a).referrals.map _).sum
    linarith
  | succ l ih =>
    intro a hl
    have := h a w (l + 1) hl
    unfold defect kidSum at this
    have e : ((I a).referrals.map fun c => (I c).tot w (l + 1)).sum = (((I a).referrals.flatMap (depth I l)).map fun c => (I c).tot w 0).sum := by
      generalize (I a).referrals = r
      induction r with
      | nil => rfl
      | cons x r ihr =>
        simp only [List.map_cons, List.sum_cons, List.flatMap_cons, List.map_append, List.sum_append]
        rw [ihr, ih x (by omega)]
    show _ = (((I a).referrals.flatMap (depth I l)).map _).sum
    linarith

theorem ancestor_banished {s : State} {top : Nat} (h : Tally top s) {c : Key} (hc : (infoOf s.store c).banished = false) : ∀ (n : Nat) (p : Key),
    ancestor s.store c n = some p → (infoOf s.store p).banished = false := by
  intro n
  induction n with
  | zero => intro p hp; exact h.forest.parent_in h.tidy.leaf hc hp
  | succ n ih =>
    intro p hp
    unfold ancestor at hp
    rw [Option.bind_eq_some_iff] at hp
    obtain ⟨a, ha, hp⟩ := hp
    exact h.forest.parent_in h.tidy.leaf (ih a ha) hp

theorem mem_depth {s : State} {top : Nat} (h : Tally top s) : ∀ (l : Nat) (a c : Key),
    c ∈ depth (view s.store) l a ↔ ancestor s.store c l = some a ∧ (infoOf s.store c).banished = false := by
  intro l
  induction l with
  | zero => intro a c; exact h.forest.mem a c
  | succ l ih =>
    intro a c
    show c ∈ ((view s.store a).referrals.flatMap (depth (view s.store) l)) ↔ _
    rw [List.mem_flatMap]
    constructor
    · rintro ⟨b, hb, hc⟩
      obtain ⟨h1, h2⟩ := (ih b c).1 hc
      refine ⟨?_, h2⟩
      unfold ancestor
      rw [h1]
      exact ((h.forest.mem a b).1 hb).1
    · rintro ⟨h1, h2⟩
      unfold ancestor at h1
      rw [Option.bind_eq_some_iff] at h1
      obtain ⟨b, hb, hp⟩ := h1
      exact ⟨b, (h.forest.mem a b).2 ⟨hp, ancestor_banished h h2 l b hb⟩, (ih b c).2 ⟨hb, h2⟩⟩

theorem depth_nodup {s : State} {top : Nat} (h : Tally top s) : ∀ (l : Nat) (a : Key), (depth (view s.store) l a).Nodup := by
  intro l
  induction l with
  | zero => intro a; exact h.forest.nodup a
  | succ l ih =>
    intro a
    show ((view s.store a).referrals.flatMap (depth (view s.store) l)).Nodup
    rw [List.nodup_flatMap]
    refine ⟨fun b _ => ih b, ?_⟩
    refine List.Pairwise.imp_of_mem ?_ (h.forest.nodup a)
    intro b b' _ _ hne
    intro c hc hc'
    have e1 := ((mem_depth h l b c).1 hc).1
    have e2 := ((mem_depth h l b' c).1 hc').1
    rw [e1] at e2
    injection e2 with e2
    exact hne e2

theorem ancestor_stored {st : KV Nat Info} {c a : Key} : ∀ (n : Nat), ancestor st c n = some a → c ∈ st.keys := by
  have base : ∀ p, (infoOf st c).referrer = some p → c ∈ st.keys := by
    intro p hp
    rw [KV.mem_keys]
    cases hg : st.get c with
    | none => unfold infoOf at hp; rw [hg] at hp; cases hp
    | some v => exact ⟨v, rfl⟩
  intro n
  induction n generalizing a with
  | zero => intro h; exact base a h
  | succ n ih =>
    intro h
    unfold ancestor at h
    rw [Option.bind_eq_some_iff] at h
    obtain ⟨b, hb, -⟩ := h
    exact ih hb

theorem Tally.match {top : Nat} {s : State} (h : Tally top s) : TotalsMatch top s.store := by
  refine ⟨?_, h.tidy.own⟩
  intro a w L h1 hL
  obtain ⟨l, rfl⟩ : ∃ l, L = l + 1 := ⟨L - 1, by omega⟩
  have e := sum_depth h.sums w l a (by omega)
  have hp : (depth (view s.store) l a).Perm (below s.store a (l + 1)) := by
    unfold below
    rw [List.perm_ext_iff_of_nodup (depth_nodup h l a) ((s.store.keys_nodup).filter _)]
    intro c
    rw [mem_depth h l a c, List.mem_filter]
    show _ ↔ _ ∧ (decide (ancestor s.store c l = some a) && _) = true
    rw [Bool.and_eq_true, decide_eq_true_eq, Bool.not_eq_true']
    constructor
    · intro hc; exact ⟨ancestor_stored l hc.1, hc⟩
    · intro hc; exact hc.2
  have e2 := (hp.map fun c => (infoOf s.store c).tot w 0).sum_eq
  rw [← e2]
  exact e

theorem ancestor_through {st : KV Nat Info} {c k : Key} {m : Nat} (h : ancestor st c m = some k) : ∀ n, ancestor st c (m + 1 + n) = ancestor st k n := by
  intro n
  induction n with
  | zero =>
    show (ancestor st c m).bind _ = _
    rw [h]; rfl
  | succ n ih =>
    show (ancestor st c (m + 1 + n)).bind _ = (ancestor st k n).bind _
    rw [ih]

theorem ancestor_mono {st : KV Nat Info} {c : Key} {m : Nat} (h : ancestor st c m = none) : ∀ n, m ≤ n → ancestor st c n = none := by
  intro n hn
  induction n with
  | zero => rw [← h, Nat.le_zero.1 hn]
  | succ n ih =>
    rcases Nat.lt_or_ge n m with hl | hl
    · rw [← h, show m = n + 1 by omega]
    · show (ancestor st c n).bind _ = none
      rw [ih hl]; rfl

/-- Where there are at most ten generations, everybody can be compressed. -/
theorem shallow_of_depth {st : KV Nat Info} (h : ∀ c ∈ st.keys, ancestor st c 9 = none) (k : Key) : Shallow st k := by
  intro n a m c h1 h2 _
  have e := ancestor_through h2 n
  rw [h1] at e
  by_contra hc
  have := ancestor_mono (h c (ancestor_stored _ e)) (m + 1 + n) (by omega)
  rw [e] at this
  cases this

theorem ancestor_line {st : KV Nat Info} {k : Key} : ∀ (i : Nat), lineV (view st) i (infoOf st k).referrer = ancestor st k i := by
  have step : ∀ (i : Nat) (p : Option Key), lineV (view st) (i + 1) p = (lineV (view st) i p).bind fun q => (infoOf st q).referrer := by
    intro i
    induction i with
    | zero => intro p; cases p <;> rfl
    | succ i ih =>
      intro p
      cases p with
      | none => rfl
      | some q => exact ih _
  intro i
  induction i with
  | zero => rfl
  | succ i ih =>
    rw [step, ih]
    rfl

theorem shallow_levels {s : State} {k : Key} (hs : Tally 10 s) (h : Shallow s.store k) : ∀ i q, i ≤ 8 →
    lineV (view s.store) i (infoOf s.store k).referrer = some q →
    ∀ w, (infoOf s.store k).tot w (10 - i) = (infoOf s.store k).tot w (9 - i) := by
  intro i q hi hq w
  rw [ancestor_line] at hq
  have key : ∀ l, 8 ≤ l + i → l < 10 → (infoOf s.store k).tot w (l + 1) = 0 := by
    intro l hl hl'
    have e : (infoOf s.store k).tot w (l + 1) = ((depth (view s.store) l k).map fun c => (view s.store c).tot w 0).sum :=
      sum_depth hs.sums w l k hl'
    have : depth (view s.store) l k = [] := by
      rw [List.eq_nil_iff_forall_not_mem]
      intro c hc
      obtain ⟨h1, h2⟩ := (mem_depth hs l k c).1 hc
      have := h i q l c hq h1 h2
      omega
    rw [e, this]
    rfl
  rw [show 10 - i = (9 - i) + 1 by omega, show 9 - i = (8 - i) + 1 by omega, key _ (by omega) (by omega), key _ (by omega) (by omega)]

theorem step_tally {top : Nat} (htop : top ≤ 10) (e : Env) (op : Op) (s : State) (hs : Tally top s) (h : totalsOk top op s) :
    Tally top (step e op s) := by
  have from2 : ∀ {m : Act Unit} {t : State}, Tally top (m s).2 → m s = (.ok (), t) → Tally top t := by
    intro m t g h; rw [h] at g; exact g
  cases op with
  | top k => exact tx_tally hs fun _ t h => addTopLevel_tally hs h
  | child p c => exact tx_tally hs fun _ t h' => from2 (appendChild_tally htop hs h.1 fun _ => h.2) h'
  | banished k f => exact tx_tally hs fun _ t h' => importBanished_tally hs h.1 h.2 h'
  | times k c b d x n => exact tx_tally hs fun _ t h' => importTimes_tally hs h h'
  | activate k => exact tx_tally hs fun _ t h' => from2 (setActive_tally htop hs fun _ => h) h'
  | register c p a => exact tx_tally hs fun _ t h' => register_tally htop hs h h'
  | comeBack k => exact tx_tally hs fun _ t h => (returnIfBanished_tally htop hs h).1
  | subscribe k => exact tx_tally hs fun _ t h => subscribe_tally htop hs h
  | expire k => exact setActive_tally htop hs (by intro h; cases h)
  | balance a p => exact setPurse_tally htop hs
  | request k d => exact tx_tally hs fun _ t h => requestTransition_tally htop hs h
  | resolve g k b => exact tx_tally hs fun _ t h => resolveTransition_tally htop hs h
  | downgrade k => exact performDowngrade_tally hs
  | compression k =>
    refine performCompression_tally hs ?_
    by_cases h9 : top ≤ 9
    · exact .inl h9
    · obtain rfl : top = 10 := by omega
      exact .inr ⟨le_rfl, shallow_levels hs (h.resolve_left h9)⟩
  | timeout k => exact cancelTransition_tally hs
  | banish k => exact banish_tally htop hs h
  | world n d p c => exact hs

theorem start_tally {top : Nat} {s : State} (h : s.start) : Tally top s := by
  have hg := start_good h
  unfold State.start at h
  have hv : ∀ k, view s.store k = core {} := by
    intro k; unfold view; rw [h, infoOf_of_not_has (by simp [KV.has])]
  refine ⟨hg, ⟨?_, ?_, ?_, ?_, ?_, ?_⟩, ?_⟩
  · intro a; rw [hv]; intro _; rfl
  · intro a; rw [hv]; intro h; rfl
  · intro a; rw [hv]; intro h; rfl
  · intro a; rw [hv]; intro h; cases h
  · intro a; rw [hv]; intro h; cases h
  · intro a; rw [hv]; rfl
  · intro a w l _
    unfold defect kidSum
    rw [hv]; rfl

end Verif.Referral
