import Verif.Referral.Totals2
import Verif.Referral.Walk
import Verif.Delegating.Rates
import Verif.Schedule.Lemmas

/-! C23–C27 and C51: the referral module. -/
namespace Verif.Referral
open Relation Verif.Util

/-- A world in which all callbacks succeed. -/
def fine : Env := ⟨fun _ _ => true⟩

/-! ## C23 -/

/-- C23 for executions in which nobody is registered as their own referrer and the genesis file is in order. -/
theorem C23_forest_partial (l : List (Env × Op)) (s : State) (h0 : s.start) (h : Along structureOk l s) : Consistent (run l s).store :=
  (Along.run step_good l s (start_good h0) h).consistent

/-- A state before genesis; account 11 owns 5, all others own 1. -/
def plain : State := { store := KV.empty, purse := fun a => { main := if a = 11 then 5 else 1 }, day := 10 }

/-- Three accounts, of which one is compressed, banished and comes back. -/
def sample : List (Env × Op) :=
  [(fine, .top (text 0)), (fine, .register (text 1) (text 0) true), (fine, .register (text 2) (text 1) true),
   (fine, .expire (text 1)), (fine, .world 700 0 0 99), (fine, .compression (text 1)), (fine, .banish (text 1)),
   (fine, .comeBack (text 1)), (fine, .request (text 2) (some (text 1)))]

example : plain.start ∧ Along structureOk sample plain ∧
    (infoOf (run sample plain).store (text 0)).referrals = [text 2, text 1] ∧
    (infoOf (run sample plain).store (text 2)).referrer = some (text 0) := by
  refine ⟨rfl, ?_, ?_, ?_⟩
  · exact ⟨trivial, (show text 1 ≠ text 0 by decide), (show text 2 ≠ text 1 by decide), trivial, trivial, trivial, trivial, trivial, trivial, trivial⟩
  · decide +kernel
  · decide +kernel

/-- C23 fails: a new account that names itself as its referrer is accepted and becomes its own ancestor. -/
theorem C23_self_referral_violation : ∃ (l : List (Env × Op)) (s : State), s.start ∧ ¬ Consistent (run l s).store := by
  refine ⟨[(fine, .register (text 1) (text 1) false)], plain, rfl, fun h => h.acyclic (text 1) 0 ?_⟩
  decide +kernel

/-! ## C24 -/

/-- C24 for executions that meet `totalsOk`: in particular nobody with referrals is banished, and levels up to nine in the presence of
compression, up to ten if it does not happen in the midst of a line of ten levels or more. -/
theorem C24_totals_partial (top : Nat) (htop : top ≤ 10) (l : List (Env × Op)) (s : State) (h0 : s.start) (h : Along (totalsOk top) l s) :
    TotalsMatch top (run l s).store :=
  (Along.run (step_tally htop) l s (start_tally h0) h).match

example : Along (totalsOk 10) sample plain ∧ (infoOf (run sample plain).store (text 0)).tot .coins 1 = 2 ∧
    (infoOf (run sample plain).store (text 0)).tot .active 1 = 1 := by
  refine ⟨?_, ?_, ?_⟩
  · exact ⟨trivial, (show text 1 ≠ text 0 by decide), (show text 2 ≠ text 1 by decide), trivial, trivial, .inr (shallow_of_depth (by decide +kernel) _), by show (infoOf _ _).referrals = []; decide +kernel, trivial, trivial, trivial⟩
  · decide +kernel
  · decide +kernel

/-- After a successful notification the own amounts of an account are what the bank says. -/
theorem C24_own_amounts (e : Env) (k : Key) (s t : State) (h : onBalanceChanged e k s = (.ok (), t)) (hk : (infoOf s.store k).isEmpty = false) :
    (infoOf t.store k).tot .coins 0 = (t.purse (addrOf k)).main + (t.purse (addrOf k)).delegated + (t.purse (addrOf k)).revoking ∧
    (infoOf t.store k).tot .delegated 0 = (t.purse (addrOf k)).delegated := by
  show _ = t.balance k ∧ _ = t.delegated k
  have ho := (bunch_cases (e := e) (Framed.balanceBody k) s).1
  have h' : bunch e (balanceBody k) s = (.ok (), t) := h
  rw [h'] at ho
  have eb : t.balance k = s.balance k := by unfold State.balance; rw [ho.purse]
  have ed : t.delegated k = s.delegated k := by unfold State.delegated; rw [ho.purse]
  rw [eb, ed]
  obtain ⟨b, t', h1, h2, h3⟩ := bunch_ok h'
  have hbt : b = true := by
    have h1' := h1
    unfold balanceBody at h1'
    rw [M.get_bind_ok] at h1'
    have : (infoOf s.fresh.work k).isEmpty = false := hk
    rw [if_neg (by rw [this]; simp), M.bind_ok_iff] at h1'
    obtain ⟨r, s1, -, h1'⟩ := h1'
    rw [M.bind_ok_iff] at h1'
    obtain ⟨_, s2, -, h1'⟩ := h1'
    simp at h1'
    exact h1'.1
  have ht := h2 hbt
  have hv0 : view s.fresh.work = view s.store := rfl
  have key : ∀ x, x = What.coins ∨ x = What.delegated →
      (view t'.work k).tot x 0 = money (s.balance k) (s.delegated k) x := by
    intro x hx
    have own : ∀ v : Info, (setOwn v (s.fresh.balance k) (s.fresh.delegated k)).tot x 0 =
        money (s.balance k) (s.delegated k) x := by
      intro v
      rcases hx with rfl | rfl <;> rfl
    have high : ∀ (d : What → Int) (p : Option Key) (I : View), (climbV (bump d id) 10 1 p I k).tot x 0 = (I k).tot x 0 := by
      intro d p I
      refine climbV_from (π := fun v => v.tot x 0) (m0 := 1) ?_ 10 1 p I (by omega) k
      intro l v hl
      rw [bump_id]
      show (if 0 = l then _ else _) = _
      rw [if_neg (by omega)]
    obtain ⟨hE, -⟩ := balanceBody_ok h1
    cases hE with
    | nothing _ he =>
      have : (infoOf s.store k).isEmpty = true := he
      rw [hk] at this; cases this
    | out b hb hv => rw [hv, upd_self]; exact own _
    | stay b hb hv => rw [hv, high, upd_self]; exact own _
    | back parent b n hb ha hop hv => rw [hv, high, upd_self]; exact own _
  rw [ht]
  exact ⟨key .coins (.inl rfl), key .delegated (.inr rfl)⟩

/-- A line of twelve accounts; the last one owns 5, the others 1. -/
def line : List (Env × Op) := (fine, .top (text 0)) :: ((List.range 11).map fun i => (fine, Op.child (text i) (text (i + 1))))

/-- C24 fails for level ten: after the compression of the second account in a line of twelve, the first one still has 1 as its total at
level ten, but the only account at depth ten owns 5. -/
theorem C24_level_ten_violation : ∃ (l : List (Env × Op)) (s : State), s.start ∧ Along structureOk l s ∧ ¬ TotalsMatch 10 (run l s).store := by
  refine ⟨line ++ [(fine, .times (text 1) (some 0) none none none 1), (fine, .world 1 0 0 99), (fine, .compression (text 1))], plain, rfl, ?_,
    fun h => absurd (h.levels (text 0) .coins 10 (by decide) le_rfl) (by decide +kernel)⟩
  exact ⟨trivial, (show text 1 ≠ text 0 by decide), (show text 2 ≠ text 1 by decide), (show text 3 ≠ text 2 by decide),
    (show text 4 ≠ text 3 by decide), (show text 5 ≠ text 4 by decide), (show text 6 ≠ text 5 by decide), (show text 7 ≠ text 6 by decide),
    (show text 8 ≠ text 7 by decide), (show text 9 ≠ text 8 by decide), (show text 10 ≠ text 9 by decide), (show text 11 ≠ text 10 by decide),
    trivial, trivial, trivial, trivial⟩

/-- C24 fails when an account with referrals is banished and comes back under another account: only its own coins move. -/
theorem C24_banished_parent_violation : ∃ (l : List (Env × Op)) (s : State), s.start ∧ Along structureOk l s ∧
    ¬ TotalsMatch 2 (run l s).store := by
  refine ⟨[(fine, .top (text 0)), (fine, .child (text 0) (text 1)), (fine, .child (text 1) (text 2)), (fine, .child (text 2) (text 3)),
    (fine, .banish (text 2)), (fine, .comeBack (text 2))], plain, rfl, ?_,
    fun h => absurd (h.levels (text 0) .coins 2 (by decide) le_rfl) (by decide +kernel)⟩
  exact ⟨trivial, (show text 1 ≠ text 0 by decide), (show text 2 ≠ text 1 by decide), (show text 3 ≠ text 2 by decide), trivial, trivial, trivial⟩

/-! ## C25 -/

/-- C25: what a commission list looks like, for all trees, statuses and sets of validators. -/
theorem C25_fees (st : KV Nat Info) (validator : Addr → Option Bool) (k : Key) (l : List (Key × Frac)) (h : validatorFees st validator k = some l) :
    (∀ x ∈ l, x.2.denom ≠ 0 ∧ 0 < x.2.toRat ∧ validator (addrOf x.1) = some true) ∧ (l.map Prod.fst).Nodup ∧
    (∃ ds : List Nat, ds.Pairwise (· < ·) ∧ (∀ d ∈ ds, d < 20) ∧ ds.map (ancestor st k) = l.map fun x => some x.1) ∧
    (l.map fun x => x.2.toRat).sum ≤ 6 / 1000 := by
  have hp : Paid st validator k 0 0 l := feesLoop_paid 20 0 none l rfl (by intro b hb; cases hb) h
  refine ⟨fun x hx => ?_, hp.distinct, ?_, ?_⟩
  · have := hp.positive x hx
    exact ⟨this.1.ne', this.2⟩
  · obtain ⟨ds, h1, h2, h3⟩ := hp.distances
    exact ⟨ds, h1, fun d hd => (h2 d hd).2, h3⟩
  · have := hp.sum (by omega)
    simpa using this

/-- The list exists unless the list of validators cannot be read. -/
theorem C25_fees_exist (st : KV Nat Info) (validator : Addr → Option Bool) (k : Key) (hv : ∀ a, (validator a).isSome) :
    (validatorFees st validator k).isSome := feesLoop_total hv 20 0 none _ (by intro b hb; cases hb)

/-- The ratios meet what the theorems about the delegating module assume. -/
theorem C25_ratios_ok (st : KV Nat Info) (validator : Addr → Option Bool) (k : Key) (l : List (Key × Frac))
    (h : validatorFees st validator k = some l) : Delegating.RatiosOk (l.map fun x => (addrOf x.1, x.2)) := by
  obtain ⟨h1, -, -, h4⟩ := C25_fees st validator k l h
  refine ⟨?_, ?_⟩
  · intro x hx
    obtain ⟨y, hy, rfl⟩ := List.mem_map.1 hx
    exact ⟨(h1 y hy).1, (h1 y hy).2.1.le⟩
  · rw [List.map_map]
    have : ((fun x : Addr × Frac => x.2.toRat) ∘ fun x : Key × Frac => (addrOf x.1, x.2)) = fun x => x.2.toRat := rfl
    rw [this]
    linarith

/-- Four validators above account 5: the nearest gets 1 permille, the next nothing, then 2 more and 3 more. -/
example : (validatorFees (KV.empty.set 10 { referrer := some 8 } |>.set 8 { status := 3, referrer := some 6 } |>.set 6 { status := 3, referrer := some 4 }
      |>.set 4 { status := 5, referrer := some 2 } |>.set 2 { status := 9 }) (fun _ => some true) 10).map (List.map fun x => (x.1, x.2.num, x.2.denom)) =
    some [(8, 1, 1000), (4, 2, 1000), (2, 3, 1000)] := by decide +kernel

/-! ## C26 -/

/-- Transitions at the level of texts: a request or an affirmation whose destination is the subject or below it fails. -/
theorem C26_refused_partial (e : Env) (k p : Key) (s : State) (h : p = k ∨ ∃ n, ancestor s.store p n = some k) :
    step e (.request k (some p)) s = s ∧
    ((infoOf s.store k).transition = some p → ∀ g, step e (.resolve g k true) s = s) := by
  have hr : ReflTransGen (treeOf (view s.store)).over k p := by
    rcases h with rfl | h
    · exact .refl
    · exact (ancestor_iff.1 h).to_reflTransGen
  constructor
  · rcases M.tx_cases (requestTransition e k (some p)) s with ⟨x, hx⟩ | ⟨-, hx⟩
    · obtain ⟨s1, -, h2, -⟩ := requestTransition_ok hx
      exact absurd hr (validated_notBelow h2)
    · exact hx
  · intro ht g
    rcases M.tx_cases (resolveTransition e g k true) s with ⟨x, hx⟩ | ⟨-, hx⟩
    · unfold resolveTransition at hx
      rw [M.get_bind_ok, M.errIf_bind_ok, if_pos rfl] at hx
      obtain ⟨a, b, -, htb, -, -, -, hnb, -⟩ := affirmTransition_ok hx.2
      have htb : (infoOf s.store k).transition = some b := htb
      rw [ht] at htb
      injection htb with htb
      subst htb
      exact absurd hr hnb
    · exact hx

/-- The walk that looks for the subject ends on every reachable structure. -/
theorem C26_walk_ends (l : List (Env × Op)) (s : State) (h0 : s.start) (h : Along structureOk l s) (k : Key) (x : Option Key) :
    reaches (run l s).store k ((run l s).store.entries.length + 2) x ≠ none :=
  reaches_ends (Along.run step_good l s (start_good h0) h) k (by omega) x

/-- An affirmed transition puts the subject under the requested destination and takes everybody below the subject along; nobody else gets
another referrer, and nobody becomes their own ancestor. -/
theorem C26_moved_partial (l : List (Env × Op)) (s0 : State) (h0 : s0.start) (hl : Along structureOk l s0) (e : Env) (k : Key) (t : State) :
    let s := run l s0
    affirmTransition e k s = (.ok (), t) → ∃ b, (infoOf s.store k).transition = some b ∧ (infoOf t.store k).referrer = some b ∧
      k ∈ (infoOf t.store b).referrals ∧ (∀ j, j ≠ k → (infoOf t.store j).referrer = (infoOf s.store j).referrer) ∧
      (∀ j, (∃ n, ancestor s.store j n = some k) → (∃ n, ancestor t.store j n = some k) ∧ ∃ n, ancestor t.store j n = some b) ∧
      Consistent t.store := by
  intro s h
  have hs : Good s := Along.run step_good l s0 (start_good h0) hl
  obtain ⟨a, b, hra, htb, hab, hkb, hak, hnb, hka, hhb, hg, refe, bane, kide, -⟩ := affirmTransition_tree hs h
  have rk : (infoOf t.store k).referrer = some b := by have := refe k; rw [if_pos rfl] at this; exact this
  have ro : ∀ j, j ≠ k → (infoOf t.store j).referrer = (infoOf s.store j).referrer := by
    intro j hj
    have := refe j
    rw [if_neg hj] at this; exact this
  refine ⟨b, htb, rk, ?_, ro, ?_, (affirmTransition_good hs h).consistent⟩
  · have := kide b
    rw [if_pos rfl] at this
    show k ∈ (view t.store b).referrals
    rw [this]; simp
  · intro j hj
    replace hj := ancestor_iff.1 hj
    have ht : TransGen (treeOf (view t.store)).over k j := by
      have nl : ¬ TransGen (treeOf (view s.store)).over k k := by
        intro h1
        exact no_loop hs h1 .refl
      induction hj with
      | single h1 =>
        rename_i c
        have hck : c ≠ k := by rintro rfl; exact nl (.single h1)
        exact .single (by show (infoOf t.store c).referrer = _; rw [ro c hck]; exact h1)
      | tail h1 h2 ih =>
        rename_i b' c
        have hck : c ≠ k := by rintro rfl; exact nl (h1.tail h2)
        exact ih.tail (by show (infoOf t.store c).referrer = _; rw [ro c hck]; exact h2)
    exact ⟨ancestor_iff.2 ht, ancestor_iff.2 (TransGen.head rk ht)⟩

/-- Four accounts: 3 moves with its referral from 1 to 2. -/
def moving : List (Env × Op) :=
  [(fine, .top (text 0)), (fine, .register (text 1) (text 0) true), (fine, .register (text 2) (text 0) true),
   (fine, .register (text 3) (text 1) true), (fine, .register (text 4) (text 3) true), (fine, .request (text 3) (some (text 2)))]

example : Along structureOk moving plain ∧ ((affirmTransition fine (text 3) (run moving plain)).1 = .ok ()) ∧
    ancestor (run moving plain).store (text 4) 0 = some (text 3) ∧
    ancestor (step fine (.resolve (text 1) (text 3) true) (run moving plain)).store (text 4) 1 = some (text 2) := by
  refine ⟨⟨trivial, (show text 1 ≠ text 0 by decide), (show text 2 ≠ text 0 by decide), (show text 3 ≠ text 1 by decide),
    (show text 4 ≠ text 3 by decide), trivial, trivial⟩, ?_, ?_, ?_⟩
  · decide +kernel
  · decide +kernel
  · decide +kernel

/-- C26 fails at the level of accounts: the request of account 3 to move below itself is accepted and affirmed when the destination is
spelled in capital letters; account 3 is then its own referrer. -/
theorem C26_capital_letters_violation : ∃ (l : List (Env × Op)) (s : State), s.start ∧ Along structureOk l s ∧
    ((infoOf (run l s).store (text 3)).referrer.map addrOf) = some 3 := by
  refine ⟨[(fine, .top (text 0)), (fine, .register (text 3) (text 0) true), (fine, .request (text 3) (some (upperText 3))),
    (fine, .resolve (text 0) (text 3) true)], plain, rfl, ⟨trivial, (show text 3 ≠ text 0 by decide), trivial, trivial, trivial⟩, ?_⟩
  decide +kernel

/-! ## C27 -/

/-- A second request for the same text fails. -/
theorem C27_second_request_partial (e : Env) (k : Key) (d : Option Key) (s : State) (h : (infoOf s.store k).transition ≠ none) :
    step e (.request k d) s = s := by
  rcases M.tx_cases (requestTransition e k d) s with ⟨x, hx⟩ | ⟨-, hx⟩
  · obtain ⟨s1, -, h2, -⟩ := requestTransition_ok hx
    obtain ⟨-, p, -, -, -, h3, -⟩ := validateTransition_ok h2
    exact absurd h3 h
  · exact hx

/-- Only the current referrer resolves a transition. -/
theorem C27_resolver (e : Env) (g k : Key) (b : Bool) (s : State) (h : (infoOf s.store k).referrer ≠ some g) :
    step e (.resolve g k b) s = s := by
  rcases M.tx_cases (resolveTransition e g k b) s with ⟨x, hx⟩ | ⟨-, hx⟩
  · unfold resolveTransition at hx
    rw [M.get_bind_ok, M.errIf_bind_ok] at hx
    exact absurd (by simpa using hx.1) h
  · exact hx

/-- Nothing but the pending transition of `k` is different. -/
structure OnlyDropped (k : Key) (s t : State) : Prop where
  record : ∀ j, infoOf t.store j = if j = k then { infoOf s.store k with transition := none } else infoOf s.store j
  index : t.index = s.index
  sched : t.sched = s.sched
  purse : t.purse = s.purse

theorem cancel_drops (k : Key) (s : State) : OnlyDropped k s (cancelTransition k s).2 := by
  have e : (cancelTransition k s).2 = { s with store := s.store.set k { infoOf s.store k with transition := none } } := rfl
  rw [e]
  exact ⟨fun j => infoOf_set _ _ _ _, rfl, rfl, rfl⟩

/-- A timeout, or a declined request, drops the request and does nothing else. -/
theorem C27_drop (e : Env) (g k : Key) (s : State) : OnlyDropped k s (step e (.timeout k) s) ∧
    ((infoOf s.store k).referrer = some g → OnlyDropped k s (step e (.resolve g k false) s)) := by
  refine ⟨cancel_drops k s, fun h => ?_⟩
  have hr : resolveTransition e g k false s = cancelTransition k s := by
    unfold resolveTransition
    rw [M.bind_ok (M.get_apply s), h]
    simp only [bne_self_eq_false]
    rw [M.bind_ok (show M.errIf false s = (.ok (), s) from rfl)]
    rfl
  have : step e (.resolve g k false) s = (cancelTransition k s).2 := by
    show M.tx (resolveTransition e g k false) s = _
    exact M.tx_of_ok (show resolveTransition e g k false s = (.ok (), (cancelTransition k s).2) by rw [hr]; rfl)
  rw [this]
  exact cancel_drops k s

example : (infoOf (run moving plain).store (text 3)).transition = some (text 2) ∧
    (infoOf (run moving plain).store (text 3)).referrer = some (text 1) := by
  constructor <;> decide +kernel

/-- C27 fails at the level of accounts: while a request of account 3 is pending, another one is accepted under the spelling of account 3
in capital letters. -/
theorem C27_second_request_violation : ∃ (l : List (Env × Op)) (s : State), s.start ∧ Along structureOk l s ∧
    (infoOf (run l s).store (text 3)).transition = some (text 2) ∧ (infoOf (run l s).store (upperText 3)).transition = some (text 1) := by
  refine ⟨moving ++ [(fine, .request (upperText 3) (some (text 1)))], plain, rfl,
    by unfold moving; simp only [List.cons_append, List.nil_append]; exact ⟨trivial, (show text 1 ≠ text 0 by decide), (show text 2 ≠ text 0 by decide), (show text 3 ≠ text 1 by decide),
      (show text 4 ≠ text 3 by decide), trivial, trivial, trivial⟩, ?_, ?_⟩
  · decide +kernel
  · decide +kernel

/-! ## C51 -/

/-- A timeout of `k` is planned for time `x`. -/
def planned (s : State) (k : Key) (x : Int) : Prop := ∃ y ∈ (s.sched.store.get x).getD [], y.handler = timeoutHook ∧ y.data = [k]

instance (s : State) (k : Key) (x : Int) : Decidable (planned s k x) := by unfold planned; infer_instance

/-- Every accepted request has a timeout one day later. -/
theorem C51_planned_partial (e : Env) (k : Key) (d : Option Key) (s t : State) (h : requestTransition e k d s = (.ok (), t)) :
    (infoOf t.store k).transition = d ∧ planned t k (t.now + t.day) := by
  obtain ⟨s1, -, -, hs⟩ := requestTransition_ok h
  refine ⟨by rw [hs, infoOf_set, if_pos rfl], ?_⟩
  unfold requestTransition at h
  rw [M.bind_ok_iff] at h
  obtain ⟨_, s0, h0, h⟩ := h
  rw [M.get_bind_ok, M.bind_ok_iff] at h
  obtain ⟨_, s1, h1, h⟩ := h
  rw [M.get_bind_ok, M.bind_ok_iff] at h
  obtain ⟨_, s2, h2, h⟩ := h
  have e2 : s2 = { s1 with store := s1.store.set k { infoOf s1.store k with transition := d } } := by
    have : (setInfo k { infoOf s1.store k with transition := d } s1).2 = s2 := by rw [h2]
    rw [← this]; rfl
  unfold request at h
  rw [M.get_bind_ok, M.orPanic_bind_ok] at h
  obtain ⟨y, hy, h⟩ := h
  have et : t = { s2 with sched := y } := by
    have : (M.set { s2 with sched := y } s2).2 = t := by rw [h]
    rw [← this]; rfl
  have hy : Schedule.schedule? s2.sched (s1.now + s1.day) timeoutHook [k] = some y := hy
  obtain ⟨-, -, hg⟩ := Schedule.schedule?_spec hy
  subst et
  rw [e2] at hg ⊢
  unfold planned
  simp only [hg, KV.get_set]
  simp

/-- C51 fails: a request that was declined leaves its timeout behind, which drops the next request of the same account before the day is
over.  Here the day is 10 long, the second request is made at time 6, and the timeout at 10 drops it. -/
theorem C51_early_timeout_violation : ∃ (l : List (Env × Op)) (s : State), s.start ∧ Along structureOk l s ∧ (run l s).day = 10 ∧
    (run l s).now = 6 ∧ (infoOf (run l s).store (text 3)).transition = some (text 2) ∧ planned (run l s) (text 3) 10 ∧
    (infoOf (step fine (.timeout (text 3)) (run l s)).store (text 3)).transition = none := by
  refine ⟨moving ++ [(fine, .resolve (text 1) (text 3) false), (fine, .world 6 0 0 99), (fine, .request (text 3) (some (text 2)))], plain, rfl,
    by unfold moving; simp only [List.cons_append, List.nil_append]; exact ⟨trivial, (show text 1 ≠ text 0 by decide), (show text 2 ≠ text 0 by decide), (show text 3 ≠ text 1 by decide),
      (show text 4 ≠ text 3 by decide), trivial, trivial, trivial, trivial, trivial⟩, ?_, ?_, ?_, ?_, ?_⟩
  all_goals decide +kernel

end Verif.Referral
