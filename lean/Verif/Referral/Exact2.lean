import Verif.Referral.Exact
import Verif.Referral.Retire5

/-!
Property C92: the amounts the referral module records for the accounts are their balances in the bank.
-/
namespace Verif.Referral

/-- Exactly the accounts `D` are stored, under their usual spelling, and their own amounts are their balances. -/
structure Ledger (D : Key → Prop) (s : State) : Prop where
  fit : Fit D s.balance s.delegated (fun _ => False) s.store
  usual : ∀ k, D k → text (addrOf k) = k

section
variable {D : Key → Prop}

theorem balance_congr {s t : State} (h : t.purse = s.purse) : t.balance = s.balance ∧ t.delegated = s.delegated := by
  constructor <;> funext k
  · unfold State.balance; rw [h]
  · unfold State.delegated; rw [h]

theorem Ledger.congr {s t : State} (hs : Ledger D s) (hst : t.store = s.store) (hp : t.purse = s.purse) : Ledger D t :=
  ⟨by rw [hst, (balance_congr hp).1, (balance_congr hp).2]; exact hs.fit, hs.usual⟩

theorem Ledger.quiet {s t : State} (hs : Ledger D s) (q : Quiet s t) : Ledger D t := hs.congr q.store q.purse

theorem Ledger.at {s : State} (hs : Ledger D s) : At D s.balance s.delegated (fun _ => False) s.fresh := ⟨hs.fit, fun _ => ⟨rfl, rfl⟩⟩

theorem Ledger.bunch {s : State} (hs : Ledger D s) {e : Env} {m : Act Bool} {Q : Bool → Prop} (hm : Framed m)
    (hf : Fix (At D s.balance s.delegated fun _ => False) (At D s.balance s.delegated fun _ => False) Q m) : Ledger D (bunch e m s).2 := by
  obtain ⟨ho, hst⟩ := bunch_cases (e := e) hm s
  rcases hst with hst | ⟨t, h1, h2⟩
  · exact hs.congr hst ho.purse
  · refine ⟨?_, hs.usual⟩
    rw [h2, (balance_congr ho.purse).1, (balance_congr ho.purse).2]
    exact (hf _ _ _ hs.at h1).1.fit

theorem Fix.ofAll {P : State → Prop} {α : Type} {m : Act α} (h : ∀ s, P s → P (m s).2) : Fix P P Any m := by
  intro s a t hs e
  have := h s hs
  rw [e] at this; exact ⟨this, trivial⟩

theorem Fix.calm {α : Type} {m : Act α} (h : Still m) : Fix (Ledger D) (Ledger D) Any m := fun _ _ _ hs e => ⟨hs.quiet (h.of e), trivial⟩

theorem Ledger.setActive {s : State} (hs : Ledger D s) (e : Env) {k : Key} (hk : D k) (value check : Bool) : Ledger D (setActive e k value check s).2 :=
  hs.bunch (.activeBody k value check) (.activeBody hk value check)
theorem Ledger.comeBack {s : State} (hs : Ledger D s) (e : Env) {k : Key} (hk : D k) : Ledger D (comeBack e k s).2 :=
  hs.bunch (.comeBackBody k) (.comeBackBody hk)
theorem Ledger.performDowngrade {s : State} (hs : Ledger D s) (e : Env) {k : Key} (hk : D k) : Ledger D (performDowngrade e k s).2 :=
  hs.bunch (.downgradeBody k) (.downgradeBody hk)
theorem Ledger.performCompression {s : State} (hs : Ledger D s) (e : Env) {k : Key} (hk : D k) : Ledger D (performCompression e k s).2 := by
  unfold Referral.performCompression
  rw [M.bind_ok (M.get_apply s)]
  split
  · exact hs
  · exact hs.bunch (.compressBody k) (.compressBody hk)
theorem Ledger.banish {s : State} (hs : Ledger D s) (e : Env) {k : Key} (hk : D k) : Ledger D (banish e k s).2 := by
  have hb : Ledger D (Referral.bunch e (banishBody k) s).2 := hs.bunch (.banishBody k) (.banishBody hk)
  unfold Referral.banish
  rcases h : Referral.bunch e (banishBody k) s with ⟨r, t⟩
  rw [h] at hb
  cases r with
  | ok a =>
    rw [M.bind_ok h]
    cases (!e.call .banished k) <;> exact hb
  | err => rw [M.bind_err h]; exact hb
  | panic => rw [M.bind_panic h]; exact hb

theorem bunch_of_body {e : Env} {m : Act Bool} (hm : Framed m) {s t : State} {b : Bool} (h : m s.fresh = (.ok b, t)) :
    (bunch e m s).2.purse = s.purse ∧ (bunch e m s).2.store = if b then t.work else s.store := by
  have h0 : (bunch e m) s = (m >>= fun b => if b then commit e else pure ()) s.fresh := rfl
  have hf := hm.of h
  rw [h0, M.bind_ok h]
  cases b with
  | false => exact ⟨hf.purse, hf.store⟩
  | true =>
    show ((commit e) t).2.purse = _ ∧ ((commit e) t).2.store = _
    unfold commit
    rw [M.bind_ok (M.modify_apply _ _), M.bind_ok (M.get_apply _)]
    cases (!(t.calls.all fun c => e.call c.1 c.2)) <;> exact ⟨hf.purse, rfl⟩

/-- A change of a balance of which the module can take note -/
theorem Ledger.setPurse {s : State} (hs : Ledger D s) (e e' : Env) (a : Addr) (p : Purse) {u : Unit} (h : (Referral.setPurse e' a p s).1 = .ok u) :
    Ledger D (Referral.setPurse e a p s).2 := by
  unfold Referral.setPurse at h ⊢
  rw [M.bind_ok (M.modify_apply _ _)] at h ⊢
  generalize hs1 : ({ s with purse := fun b => if b = a then p else s.purse b } : State) = s1 at h ⊢
  have hst : s1.store = s.store := by rw [← hs1]
  have hsame : ∀ k, D k → ¬ (k = text a) → s1.balance k = s.balance k ∧ s1.delegated k = s.delegated k := by
    intro k hk hne
    have : addrOf k ≠ a := fun h => hne (by rw [← h, hs.usual k hk])
    unfold State.balance State.delegated
    rw [← hs1]
    simp [this]
  have hfit : Fit D s1.balance s1.delegated (· = text a) s1.store := by
    rw [hst]
    refine ⟨hs.fit.keys, hs.fit.kin, hs.fit.alive, ?_⟩
    intro k hk hne
    have := hs.fit.own k hk (fun h => h)
    unfold Own at *
    rw [(hsame k hk hne).1, (hsame k hk hne).2]; exact this
  unfold onBalanceChanged at h ⊢
  rcases hb : Referral.bunch e' (balanceBody (text a)) s1 with ⟨r, t⟩
  rw [hb] at h
  simp only at h
  subst h
  obtain ⟨b, t', h1, -, -⟩ := bunch_ok hb
  obtain ⟨hp, hst'⟩ := bunch_of_body (e := e) (Framed.balanceBody (text a)) h1
  obtain ⟨h2, h3⟩ := Fix.balanceBody s1.fresh b t' ⟨hfit, fun _ => ⟨rfl, rfl⟩⟩ h1
  refine ⟨?_, hs.usual⟩
  rw [hst', (balance_congr hp).1, (balance_congr hp).2]
  cases b with
  | true => exact h2.fit
  | false => exact ⟨hfit.keys, hfit.kin, hfit.alive, fun k hk _ => hfit.own k hk fun e => h3 rfl (e ▸ hk)⟩

theorem Fix.setPurse (e : Env) (a : Addr) (p : Purse) : Fix (Ledger D) (Ledger D) Any (setPurse e a p) := by
  intro s u t hs h
  have := hs.setPurse e e a p (u := u) (by rw [h])
  rw [h] at this; exact ⟨this, trivial⟩

theorem Fix.pay (e : Env) (a : Addr) (x : Int) : Fix (Ledger D) (Ledger D) Any (pay e a x) :=
  .bind .get fun _ _ => .bind .errIf fun _ _ => .bind (.setPurse _ _ _) fun _ _ => .bind .get fun _ _ => .setPurse _ _ _

theorem Ledger.set {s : State} (hs : Ledger D s) {k : Key} {v : Info} (hk : D k) (hv : Kin D v) (ha : Alive v) (ho : v.tot = (infoOf s.store k).tot) :
    Ledger D (Referral.setInfo k v s).2 := by
  refine ⟨?_, hs.usual⟩
  refine hs.fit.set hk hv ha (fun _ => ?_) (fun _ _ h => h)
  have := hs.fit.own k hk (fun h => h)
  unfold Own at *
  rw [ho]; exact this

/-- Another destination, or none -/
theorem Ledger.goal {s : State} (hs : Ledger D s) {k : Key} (hk : D k) (x : Option Key) (hx : ∀ b, x = some b → D b) :
    Ledger D (Referral.setInfo k { infoOf s.store k with transition := x } s).2 :=
  hs.set hk ⟨(hs.fit.kin k hk).referrer, (hs.fit.kin k hk).referrals, hx, (hs.fit.kin k hk).date⟩ (hs.fit.alive k hk) rfl

theorem Ledger.cancelTransition {s : State} (hs : Ledger D s) {k : Key} (hk : D k) : Ledger D (cancelTransition k s).2 :=
  hs.goal hk none (by intro b h; cases h)

theorem Still.validateTransition (k : Key) (x : Option Key) (b : Bool) (s : State) : (validateTransition k x b s).2 = s := by
  have pan : ∀ {α : Type} {o : Option α} {a : α} {s t : State}, (M.orPanic o : Act α) s = (.ok a, t) → t = s := by
    intro α o a s t h; cases o <;> cases h; rfl
  unfold Referral.validateTransition
  rw [M.bind_ok (M.get_apply s)]
  cases x with
  | none => rfl
  | some p =>
    have one : ∀ (c : Bool) (m : Act Unit), (m s).2 = s → ((M.errIf c >>= fun _ => m) s).2 = s := by
      intro c m h
      cases c with
      | true => rfl
      | false => exact h
    refine one _ _ (one _ _ (one _ _ (one _ _ ?_)))
    cases reaches s.store k (s.store.entries.length + 2) (infoOf s.store p).referrer with
    | none => rfl
    | some c => cases c <;> rfl

theorem Fix.validateTransition (k : Key) (x : Option Key) (b : Bool) : Fix (Ledger D) (Ledger D) Any (validateTransition k x b) :=
  .ofAll fun s hs => by rw [Still.validateTransition]; exact hs

theorem Fix.requestTransition (e : Env) {k : Key} (hk : D k) (x : Option Key) (hx : ∀ b, x = some b → D b) :
    Fix (Ledger D) (Ledger D) Any (requestTransition e k x) := by
  unfold Referral.requestTransition
  refine .bind (.validateTransition _ _ _) fun _ _ => .bind .get fun s _ => .bind (.ite (fun _ => .pay _ _ _) fun _ => .pure trivial) fun _ _ => ?_
  intro s a t hs h
  rw [M.get_bind_ok, M.bind_ok_iff] at h
  obtain ⟨u, t', h1, h2⟩ := h
  have := hs.goal hk x hx
  rw [h1] at this
  exact (Fix.calm (.request _)) t' a t this h2

theorem Ledger.affirm {s t : State} (hs : Ledger D s) (e : Env) {k : Key} (hk : D k) {u : Unit} (h : affirmTransition e k s = (.ok u, t)) : Ledger D t := by
  unfold Referral.affirmTransition at h
  rw [M.get_bind_ok, M.bind_ok_iff] at h
  obtain ⟨_, s1, h1, h⟩ := h
  have e1 : s1 = s := by
    have := Still.validateTransition k (infoOf s.store k).transition false s
    rw [h1] at this; exact this
  subst e1
  rw [M.bind_ok_iff] at h
  obtain ⟨_, s2, h2, h⟩ := h
  have hkin := hs.fit.kin k hk
  have hb : Ledger D s2 := by
    have := hs.set hk (v := { infoOf s1.store k with referrer := (infoOf s1.store k).transition, transition := none })
      ⟨hkin.transition, hkin.referrals, (by intro b h; cases h), hkin.date⟩ (hs.fit.alive k hk) rfl
    rw [h2] at this; exact this
  cases hp : (infoOf s1.store k).referrer with
  | none => simp only [hp] at h; cases h
  | some p =>
    cases hq : (infoOf s1.store k).transition with
    | none => simp only [hp, hq] at h; cases h
    | some q =>
      simp only [hp, hq] at h
      have := Fix.must (P := Ledger D) (P' := Ledger D) (Fix.ofAll (m := Referral.bunch e (Referral.moveBody k (infoOf s1.store k) p q)) fun s hs =>
        hs.bunch (.moveBody _ _ _ _) (.moveBody hk (hkin.referrer p hp) (hkin.transition q hq)))
      exact (this _ _ _ hb h).1

theorem Fix.resolveTransition (e : Env) (g : Key) {k : Key} (hk : D k) (b : Bool) : Fix (Ledger D) (Ledger D) Any (resolveTransition e g k b) :=
  .bind .get fun _ _ => .bind .errIf fun _ _ => .ite (fun _ => fun _ _ _ hs h => ⟨hs.affirm e hk h, trivial⟩) fun _ => .ofAll fun _ hs => hs.cancelTransition hk

theorem Fix.returnIfBanished (e : Env) {k : Key} (hk : D k) : Fix (Ledger D) (Ledger D) Any (returnIfBanished e k) :=
  .bind .get fun _ _ => .ite (fun _ => .ofAll fun _ hs => hs.comeBack e hk) fun _ => .pure trivial

theorem Fix.tx {α : Type} {P P' : State → Prop} {Q : α → Prop} {m : Act α} (h : Fix P P' Q m) {s : State} (hs : P s) : P' (M.tx m s) ∨ M.tx m s = s := by
  rcases M.tx_cases m s with ⟨x, hx⟩ | ⟨-, hx⟩
  · exact .inl (h s x _ hs hx).1
  · exact .inr hx

theorem usual_add {k : Key} (hk : text (addrOf k) = k) (hD : ∀ j, D j → text (addrOf j) = j) : ∀ j, D j ∨ j = k → text (addrOf j) = j := by
  rintro j (h | rfl)
  · exact hD j h
  · exact hk

theorem newInfo_kin {D' : Key → Prop} {p : Option Key} (hp : ∀ a, p = some a → D' a) (x y : Int) : Kin D' (newInfo p x y) :=
  ⟨hp, (by intro q hq; cases hq), (by intro b h; cases h), by intro b h; cases h⟩

theorem Ledger.addTop {s t : State} (hs : Ledger D s) (e : Env) {k : Key} (hk : text (addrOf k) = k) {u : Unit} (h : addTopLevel e k s = (.ok u, t)) :
    Ledger (fun j => D j ∨ j = k) t := by
  have : Fix (fun s' => s' = s) (Ledger fun j => D j ∨ j = k) (Any : Unit → Prop) (addTopLevel e k) := by
    clear h
    refine .recover ?_
    intro s' a t hs' h
    subst hs'
    rw [M.get_bind_ok, M.bind_ok_iff] at h
    obtain ⟨_, s1, h1, h⟩ := h
    rw [M.errIf_ok_iff] at h1
    rw [h1.2] at h
    obtain ⟨b, t', h2, h3, h4⟩ := bunch_ok h
    cases h2
    have hw := h3 rfl
    have hp : t.purse = s'.purse := by
      have := (bunch_of_body (e := e) (m := do put k (newInfo none (s'.balance k) (s'.delegated k)); Pure.pure true) (s := s') (fun s => ?_) rfl).1
      rw [h] at this; exact this
      exact ⟨rfl, rfl, rfl, rfl, rfl, rfl, rfl, fun j hj => by
        show (s.work.set _ _).has j = true
        rw [has_set, hj, Bool.or_true]⟩
    refine ⟨⟨?_, usual_add hk hs.usual⟩, trivial⟩
    rw [hw, (balance_congr hp).1, (balance_congr hp).2]
    exact hs.fit.add (newInfo_kin (by intro a h; cases h) _ _) (.inr le_rfl) ⟨rfl, rfl⟩
  exact (this s u t rfl h).1

theorem Fix.appendChild (e : Env) {p k : Key} (hp : D p) (hk : text (addrOf k) = k) (x y : Bool) :
    Fix (Ledger D) (Ledger fun j => D j ∨ j = k) Any (appendChild e p k x y) := by
  intro s u t hs h
  unfold Referral.appendChild at h
  rw [M.get_bind_ok, M.bind_ok_iff] at h
  obtain ⟨_, s1, h1, h⟩ := h
  rw [M.errIf_ok_iff] at h1
  rw [h1.2] at h
  obtain ⟨b, t', h2, h3, -⟩ := bunch_ok h
  obtain ⟨hpu, hst⟩ := bunch_of_body (e := e) (Framed.appendBody p k x y) h2
  rw [h] at hpu hst
  unfold appendBody at h2
  rw [M.get_bind_ok, M.bind_ok_iff] at h2
  obtain ⟨_, s2, h4, h5⟩ := h2
  have hat : At (fun j => D j ∨ j = k) s.balance s.delegated (fun _ => False) s2 := by
    cases h4
    refine ⟨?_, fun _ => ⟨rfl, rfl⟩⟩
    refine hs.fit.add ?_ ?_ ?_
    · have := newInfo_kin (D' := fun j => D j ∨ j = k) (p := some p) (by intro a h; cases h; exact .inl hp) (s.fresh.balance k) (s.fresh.delegated k)
      split
      · exact ⟨this.referrer, this.referrals, this.transition, this.date⟩
      · exact this
    · split <;> exact .inr le_rfl
    · split <;> exact ⟨rfl, rfl⟩
  have key : ∀ {m : Act Bool}, m s2 = (.ok b, t') → Fix (At (fun j => D j ∨ j = k) s.balance s.delegated fun _ => False)
      (At (fun j => D j ∨ j = k) s.balance s.delegated fun _ => False) (fun b => b = true) m →
      At (fun j => D j ∨ j = k) s.balance s.delegated (fun _ => False) t' ∧ b = true := fun h H => H s2 b t' hat h
  have hend := key h5 (.bind (Q := fun r => ∀ a, r.1 = some a → D a ∨ a = k) (.near (.inl hp) fun v hv => .bind (.still (.addCall _ _)) fun _ _ => .pure ⟨(by
        have := Near.add hv (money (s.fresh.balance k) (s.fresh.delegated k)) (le_refl 1)
        refine ⟨⟨hv.referrer, ?_, hv.transition, hv.date⟩, this.coins, this.delegated, rfl, rfl⟩
        intro q hq
        rcases List.mem_append.1 hq with h | h
        · exact hv.referrals q h
        · exact .inr (List.mem_singleton.1 h)), hv.referrer⟩) fun r hr => .bind .errIf fun _ _ =>
    .bind (.climb (fun l k v hl hv => .bind (.still (.addCall _ _)) fun _ _ => .pure (.add hv _ hl)) _ _ _ (by omega) hr) fun _ _ => .pure rfl)
  refine ⟨⟨?_, usual_add hk hs.usual⟩, trivial⟩
  rw [hst, hend.2, (balance_congr hpu).1, (balance_congr hpu).2]
  exact hend.1.fit
end

/-! ### Executions -/

/-- What is asked of the steps: everybody named in them is known, but for new accounts, which are given in the usual spelling; records of the
genesis file count as present and have dates before 2263; and the module can take note of changes of balance (C58 says when). -/
def exactOk : Op → State → Prop
  | .top k, _ => text (addrOf k) = k
  | .child p k, s => s.store.has p = true ∧ text (addrOf k) = k
  | .banished k f, s => s.store.has f = true ∧ text (addrOf k) = k
  | .times k _ b _ x n, s => s.store.has k = true ∧ (∀ b, x = some b → s.store.has b = true) ∧ ((infoOf s.store k).banished = true ∨ 1 ≤ n) ∧
      ∀ y, b = some y → Schedule.inRange y = true
  | .activate k, s => s.store.has k = true
  | .register k p _, s => s.store.has p = true ∧ text (addrOf k) = k
  | .comeBack k, s => s.store.has k = true
  | .subscribe k, s => s.store.has k = true
  | .expire k, s => s.store.has k = true
  | .balance a p, s => (setPurse obliging a p s).1 = .ok ()
  | .request k x, s => s.store.has k = true ∧ ∀ b, x = some b → s.store.has b = true
  | .resolve _ k _, s => s.store.has k = true
  | .downgrade k, s => s.store.has k = true
  | .compression k, s => s.store.has k = true
  | .timeout k, s => s.store.has k = true
  | .banish k, s => s.store.has k = true
  | .world _ _ _ _, _ => True

theorem step_ledger (e : Env) (op : Op) (s : State) (h : ∃ D, Ledger D s) (ho : exactOk op s) : ∃ D, Ledger D (step e op s) := by
  obtain ⟨D, hs⟩ := h
  have known : ∀ {k}, s.store.has k = true → D k := fun h => (hs.fit.keys _).1 h
  have same : ∀ {α : Type} {m : Act α}, Fix (Ledger D) (Ledger D) Any m → ∃ D, Ledger D (M.tx m s) := fun hm =>
    ⟨D, (hm.tx hs).elim id fun h => by rw [h]; exact hs⟩
  have more : ∀ {α : Type} {m : Act α} {D' : Key → Prop}, Fix (Ledger D) (Ledger D') Any m → ∃ D, Ledger D (M.tx m s) := fun hm =>
    (hm.tx hs).elim (fun h => ⟨_, h⟩) fun h => ⟨D, by rw [h]; exact hs⟩
  cases op with
  | top k => exact more (D' := fun j => D j ∨ j = k) fun s u t hs h => ⟨hs.addTop e ho h, trivial⟩
  | child p k => exact more (.appendChild e (known ho.1) ho.2 _ _)
  | banished k f =>
    refine ⟨fun j => D j ∨ j = k, ?_, usual_add ho.2 hs.usual⟩
    exact hs.fit.add ⟨(by intro p h; cases h; exact .inl (known ho.1)), (by intro q hq; cases hq), (by intro b h; cases h), by intro b h; cases h⟩ (.inl rfl) ⟨rfl, rfl⟩
  | times k c b d x n =>
    have hk := known ho.1
    refine ⟨D, ?_, hs.usual⟩
    exact hs.fit.set hk ⟨(hs.fit.kin k hk).referrer, (hs.fit.kin k hk).referrals, fun b hb => known (ho.2.1 b hb), ho.2.2.2⟩ ho.2.2.1
      (fun _ => hs.fit.own k hk fun h => h) (fun _ _ h => h)
  | activate k => exact same (.ofAll fun _ hs => hs.setActive e (known ho) _ _)
  | register k p a =>
    exact more (D' := fun j => D j ∨ j = k) (.seq (.appendChild e (known ho.1) ho.2 _ _) fun _ _ => .bind .get fun _ _ => .bind (.calm (.request _)) fun _ _ =>
      .ite (fun _ => .ofAll fun _ hs => hs.setActive e (.inr rfl) _ _) fun _ => .pure trivial)
  | comeBack k => exact same (.returnIfBanished e (known ho))
  | subscribe k => exact same (.bind (.returnIfBanished e (known ho)) fun _ _ => .ofAll fun _ hs => hs.setActive e (known ho) _ _)
  | expire k => exact ⟨D, hs.setActive e (known ho) _ _⟩
  | balance a p => exact ⟨D, hs.setPurse e obliging a p ho⟩
  | request k x => exact same (.requestTransition e (known ho.1) x fun b hb => known (ho.2 b hb))
  | resolve g k b => exact same (.resolveTransition e g (known ho) b)
  | downgrade k => exact ⟨D, hs.performDowngrade e (known ho)⟩
  | compression k => exact ⟨D, hs.performCompression e (known ho)⟩
  | timeout k => exact ⟨D, hs.cancelTransition (known ho)⟩
  | banish k => exact ⟨D, hs.banish e (known ho)⟩
  | world n d p c => exact ⟨D, hs.congr rfl rfl⟩

theorem start_ledger {s : State} (h : s.start) : Ledger (fun _ => False) s := by
  unfold State.start at h
  refine ⟨⟨?_, ?_, ?_, ?_⟩, ?_⟩
  · intro k; rw [h]; simp [KV.has]
  all_goals intro k hk; exact hk.elim
end Verif.Referral
