import Verif.Chain.EnactWhen

/-! C76: concrete cases, and where it fails. -/
namespace Verif.Enact
open Verif.Util

/-- A state with acceptable parameters. -/
def world : World where
  bank := ⟨1000, 0, ⟨⟨3, 1000⟩, 1000000, ⟨1, 2⟩, ⟨1, 4⟩⟩, 50, [9]⟩
  delegating := ⟨1000, ⟨14, ⟨5, 100⟩⟩, ⟨1, ⟨15, 100⟩⟩, [⟨0, [⟨21, 100⟩, ⟨0, 1⟩, ⟨1, 100⟩, ⟨0, 1⟩, ⟨0, 1⟩]⟩]⟩
  noding := ⟨KV.empty.set 4 { status := true, strokes := 2, jailCount := 1, score := 5, staff := true }, KV.empty, KV.empty, KV.empty,
    ⟨100, 2, 600, 5, 4, 100, 1000, ⟨[⟨⟨1, 1⟩, 10⟩], 10⟩⟩⟩
  profile := { creators := [1], storageSigners := [2, 3], vpnSigners := [2], tokenRateSigners := [2] }
  transitionPrice := 1000000
  signers := [5, 6, 7]
  government := [Voting.text 1, Voting.text 2]
  plan := none
  done := [3]

def env : Env := ⟨⟨10, fun _ => some 5000, fun _ => some 5, fun _ => 500, fun x => x, id⟩, 1000⟩

theorem world_acceptable : Acceptable world :=
  ⟨by decide +kernel, by decide +kernel, by decide +kernel, by decide +kernel, by decide +kernel⟩

/-- The state an enactment ends in, and whether it succeeded. -/
def after (k : Kind) (x : Args) (w : World) : World := (enact env k x w).2
def works (k : Kind) (x : Args) (w : World) : Bool := (enact env k x w).1.isOk

/-! ### Cases of the theorems -/

/-- `C76_sets`, `C76_takes_effect_partial`: a value of every kind. -/
example :
    (works .enterPrice (.price 5) world && works .fee (.portion (some ⟨1, 100⟩)) world && works .upgrade (.upgrade 4 0 (some 2000)) world &&
      works .split (.portions [some ⟨1, 3⟩, some ⟨1, 3⟩]) world && works .minCriteria (.criteria (some ⟨5, 1, 2⟩)) world &&
      works .revoke (.revoke (some ⟨7, ⟨1, 10⟩⟩)) world) = true ∧
    read (after .enterPrice (.price 5) world) .enterPrice = .num 5 ∧
    read (after .split (.portions [some ⟨1, 3⟩, some ⟨1, 3⟩]) world) .split = .portions ⟨1, 3⟩ ⟨1, 3⟩ ∧
    read (after .upgrade (.upgrade 4 0 (some 2000)) world) .plan = .plan (some ⟨4, 2000⟩) ∧
    argsOk? .split (.portions [some ⟨1, 3⟩, some ⟨1, 3⟩]) = some true := by decide +kernel

/-- `C76_adds`, `C76_strikes_partial`. -/
example :
    rollOf (after .creatorAdd (.address (some 8)) world) .creators = [1, 8].map Voting.text ∧
    rollOf (after .earningSignerRemove (.address (some 5)) world) .earningSigners = [7, 6].map Voting.text ∧
    rollOf (after .governmentRemove (.address (some 1)) world) .government = [Voting.text 2] ∧
    rollOf (after .blockedSenderRemove (.address (some 9)) world) .blockedSenders = [] := by decide +kernel

/-- `C76_staff_add`, `C76_staff_remove`, `C76_amnesty`. -/
example :
    ((after .staffAdd (.address (some 8)) world).noding.records.get 8).map Noding.Info.staff = some true ∧
    ((after .staffRemove (.address (some 4)) world).noding.records.get 4).map Noding.Info.staff = some false ∧
    ((after .amnesty .none world).noding.records.get 4).map (fun i => (i.strokes, i.jailCount, i.score)) = some (0, 0, 7) := by decide +kernel

/-! ### Where the full claim fails -/

/-- The proposal passes the checks of the message. -/
abbrev Filed (k : Kind) (x : Args) : Prop := (⟨1, some 1, k, x, none⟩ : Proposal).accepted = true

/-- Values out of bounds are accepted for voting but cannot be put into force: the enactment panics. -/
theorem C76_value_violation :
    ∀ p ∈ [(Kind.enterPrice, Args.price 0), (.vpnPrice, .price 0), (.storagePrice, .price 0), (.minDelegate, .minAmount 0), (.dust, .minAmount (-1)),
        (.maxValidators, .count 0)],
      Filed p.1 p.2 ∧ enact env p.1 p.2 world = (.panic, world) := by
  have h : ∀ p ∈ [(Kind.enterPrice, Args.price 0), (.vpnPrice, .price 0), (.storagePrice, .price 0), (.minDelegate, .minAmount 0),
      (.dust, .minAmount (-1)), (.maxValidators, .count 0)],
      ((⟨1, some 1, p.1, p.2, none⟩ : Proposal).accepted = true) ∧ (enact env p.1 p.2 world).1 = .panic := by
    intro p hp
    simp only [List.mem_cons, List.not_mem_nil, or_false] at hp
    rcases hp with rfl | rfl | rfl | rfl | rfl | rfl <;> exact ⟨by decide +kernel, by decide +kernel⟩
  intro p hp
  obtain ⟨h1, h2⟩ := h p hp
  refine ⟨h1, Prod.ext h2 ?_⟩
  exact C76_all_or_nothing env p.1 p.2 world (by rw [h2]; simp)

/-- A negative bound of transaction fees is accepted for voting, passes, and silently has no effect. -/
theorem C76_max_fee_violation : Filed .maxFee (.minAmount (-1)) ∧ (enact env .maxFee (.minAmount (-1)) world).1 = .err :=
  ⟨by decide +kernel, by decide +kernel⟩

/-- Proposals of deprecated types are accepted for voting and never have an effect. -/
theorem C76_deprecated_violation :
    Filed (.deprecated .validatorBonus) (.portion (some ⟨1, 100⟩)) ∧
      ∀ e w, enact e (.deprecated .validatorBonus) (.portion (some ⟨1, 100⟩)) w = (.err, w) :=
  ⟨by decide +kernel, fun _ _ => rfl⟩

/-- The last member cannot be struck off a list that must not be empty: the enactment panics. -/
theorem C76_last_member_violation :
    Filed .creatorRemove (.address (some 1)) ∧ (enact env .creatorRemove (.address (some 1)) world).1 = .panic :=
  ⟨by decide +kernel, by decide +kernel⟩

/-- An account put twice on the list of earning signers, or into the government, stays on it after it was struck off. -/
theorem C76_strike_violation :
    Voting.text 5 ∈ rollOf (after .earningSignerRemove (.address (some 5)) (after .earningSignerAdd (.address (some 5)) world)) .earningSigners ∧
    Voting.text 1 ∈ rollOf (after .governmentRemove (.address (some 1)) (after .governmentAdd (.address (some 1)) world)) .government := by
  decide +kernel

/-- The last governor can be struck off: nobody is left to propose anything. -/
theorem C76_empty_government_violation :
    rollOf (after .governmentRemove (.address (some 2)) (after .governmentRemove (.address (some 1)) world)) .government = [] := by decide +kernel

/-! ### What a panic means -/

/-- If putting a proposal into force panics, the vote that would complete it with agreement always fails and is lost. -/
theorem C76_last_vote_lost {W : Type} (e : Voting.Env W) {s : Voting.State W} {p : Voting.Proposal} {n : Nat} (hc : s.current = some p)
    (hk : p.kind = .other n) (hp : (e.enact n s.world).1 = .panic) (v : Addr) (agree : Bool)
    (hall : Voting.validate s.gov (if agree then Voting.append s.agreed v else s.agreed)
      (if agree then s.disagreed else Voting.append s.disagreed v) = (true, true)) :
    (Voting.vote e v agree s).1.isOk = false ∧ M.tx (Voting.vote e v agree) s = s := by
  have key : ∀ t, Voting.vote e v agree s ≠ (.ok (), t) := by
    intro t h
    unfold Voting.vote at h
    rw [M.get_bind_ok, hc] at h
    dsimp only at h
    rw [M.errIf_bind_ok, M.errIf_bind_ok, M.errIf_bind_ok, M.modify_bind_ok, hall] at h
    simp only [if_true] at h
    obtain ⟨-, -, -, h⟩ := h
    unfold Voting.endProposal at h
    obtain ⟨_, s1, h1, h⟩ := M.bind_ok_iff.1 h
    obtain ⟨_, s2, h2, h⟩ := M.bind_ok_iff.1 h
    rw [M.modify_bind_ok] at h
    simp only [if_true, hk, Voting.enact] at h
    have w1 : s1.world = s.world := by
      unfold Voting.onSched at h1
      split at h1
      · cases h1; rfl
      · cases h1
    have w2 : s2.world = s1.world := by
      unfold Voting.saveToHistory at h2
      rw [M.get_bind_ok, M.orPanic_bind_ok] at h2
      obtain ⟨_, -, h2⟩ := h2
      rw [M.orPanic_bind_ok] at h2
      obtain ⟨_, -, h2⟩ := h2
      cases h2; rfl
    unfold Voting.onWorld at h
    simp only [w2, w1] at h
    rcases hw : e.enact n s.world with ⟨r, w⟩
    rw [hw] at hp h
    cases hp
    cases h
  have hf : (Voting.vote e v agree s).1.isOk = false := by
    rcases hr : Voting.vote e v agree s with ⟨r, t⟩
    cases r with
    | ok u => exact absurd hr (key t)
    | err => rfl
    | panic => rfl
  exact ⟨hf, M.tx_of_fail hf⟩

/-- Such a vote: two governors, a subscription price of zero. -/
example : ∃ (e : Voting.Env World) (s : Voting.State World), s.current = some ⟨7, Voting.text 1, .other 0, 500⟩ ∧
    (e.enact 0 s.world).1 = .panic ∧ Voting.validate s.gov (Voting.append s.agreed 2) s.disagreed = (true, true) :=
  ⟨⟨100, 5, 1, 24, 24, fun _ w => enact env .enterPrice (.price 0) w, fun _ _ => none, fun _ _ => none⟩,
    { Voting.fresh world.government Schedule.State.empty world with
      current := some ⟨7, Voting.text 1, .other 0, 500⟩, agreed := [Voting.text 1], startBlock := some 3 },
    rfl, by decide +kernel, by decide +kernel⟩

end Verif.Enact
