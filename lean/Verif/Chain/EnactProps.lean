import Verif.Chain.Enact
import Verif.Earning.Props
import Verif.Noding.Score

/-!
C76: an enacted proposal does what it says and nothing else.

The specification looks at the state through `read` (single values), `rollOf` (lists of accounts), the records of validators and `rest`; `C76_whole`
says that nothing escapes it.
-/
namespace Verif.Enact
open Verif.Util

/-! ### Specification -/

/-- The single values a proposal can set. -/
inductive Item where
  | enterPrice | vpnPrice | storagePrice | transitionPrice | minSend | minDelegate | dust | maxFee | fee | split
  | maxValidators | luckyValidators | jailAfter | minCriteria | votingPower | table | revoke | expressRevoke | plan
deriving DecidableEq, Repr

inductive Value where
  | num (n : Int)
  | criteria (status self total : Nat)
  | power (d : Noding.Distribution)
  | portion (q : Frac)
  | portions (p q : Frac)
  | table (t : List Delegating.Row)
  | revoke (r : Delegating.RevokeParams)
  | plan (p : Option Plan)
deriving DecidableEq

def read (w : World) : Item → Value
  | .enterPrice => .num w.profile.subscriptionPrice
  | .vpnPrice => .num w.profile.vpnGbPrice
  | .storagePrice => .num w.profile.storageGbPrice
  | .transitionPrice => .num w.transitionPrice
  | .minSend => .num w.bank.minSend
  | .minDelegate => .num w.delegating.minDelegate
  | .dust => .num w.bank.dustDelegation
  | .maxFee => .num w.bank.fee.maxFee
  | .fee => .portion w.bank.fee.rate
  | .split => .portions w.bank.fee.forProposer w.bank.fee.forCompany
  | .maxValidators => .num w.noding.params.maxValidators
  | .luckyValidators => .num w.noding.params.lotteryValidators
  | .jailAfter => .num w.noding.params.jailAfter
  | .minCriteria => .criteria w.noding.params.minStatus w.noding.params.minSelf w.noding.params.minTotal
  | .votingPower => .power w.noding.params.votingPower
  | .table => .table w.delegating.table
  | .revoke => .revoke w.delegating.revoke
  | .expressRevoke => .revoke w.delegating.express
  | .plan => .plan w.plan

/-- The lists of accounts a proposal can change. -/
inductive Roll where
  | government | creators | rateSigners | vpnSigners | storageSigners | earningSigners | blockedSenders
deriving DecidableEq, Repr

def rollOf (w : World) : Roll → List Voting.Name
  | .government => w.government
  | .creators => w.profile.creators.map Voting.text
  | .rateSigners => w.profile.tokenRateSigners.map Voting.text
  | .vpnSigners => w.profile.vpnSigners.map Voting.text
  | .storageSigners => w.profile.storageSigners.map Voting.text
  | .earningSigners => w.signers.map Voting.text
  | .blockedSenders => w.bank.blockedSenders.map Voting.text

/-- What no proposal changes. -/
structure Rest where
  renamePrice : Int
  cardMagic : Nat
  tokenRate : Frac
  baseVpn : Nat
  baseStorage : Nat
  company : Addr
  unjailAfter : Nat
  operators : KV Noding.PubKey Noding.Addr
  proposers : KV Int Noding.Addr
  done : List Nat

def rest (w : World) : Rest :=
  ⟨w.profile.renamePrice, w.profile.cardMagic, w.profile.tokenRate, w.profile.baseVpnGb, w.profile.baseStorageGb, w.bank.companyAccount,
    w.noding.params.unjailAfter, w.noding.operators, w.noding.proposers, w.done⟩

/-- The records and the queue of validators. -/
def validators (w : World) : KV Noding.Addr Noding.Info × KV Nat Noding.Addr := (w.noding.records, w.noding.queue)

/-- Values: the proposal asks for this value of this item. -/
def asks : Kind → Args → Option (Item × Value)
  | .enterPrice, .price n => some (.enterPrice, .num n)
  | .vpnPrice, .price n => some (.vpnPrice, .num n)
  | .storagePrice, .price n => some (.storagePrice, .num n)
  | .transitionPrice, .price n => some (.transitionPrice, .num n)
  | .minSend, .minAmount n => some (.minSend, .num n)
  | .minDelegate, .minAmount n => some (.minDelegate, .num n)
  | .dust, .minAmount n => some (.dust, .num n)
  | .maxFee, .minAmount n => some (.maxFee, .num n)
  | .fee, .portion (some q) => some (.fee, .portion q)
  | .split, .portions (some p :: some q :: _) => some (.split, .portions p q)
  | .maxValidators, .count n => some (.maxValidators, .num n)
  | .luckyValidators, .count n => some (.luckyValidators, .num n)
  | .jailAfter, .count n => some (.jailAfter, .num n)
  | .minCriteria, .criteria (some c) => some (.minCriteria, .criteria c.status c.self c.total)
  | .votingPower, .votingPower d => some (.votingPower, .power d)
  | .table, .table t => some (.table, .table t)
  | .revoke, .revoke (some r) => some (.revoke, .revoke r)
  | .expressRevoke, .revoke (some r) => some (.expressRevoke, .revoke r)
  | .upgrade, .upgrade n _ (some t) => some (.plan, .plan (some ⟨n, t⟩))
  | .cancelUpgrade, _ => some (.plan, .plan none)
  | _, _ => none

/-- Lists: the proposal asks to put this account on this list. -/
def adds : Kind → Args → Option (Roll × Addr)
  | .governmentAdd, .address (some a) => some (.government, a)
  | .creatorAdd, .address (some a) => some (.creators, a)
  | .rateSignerAdd, .address (some a) => some (.rateSigners, a)
  | .vpnSignerAdd, .address (some a) => some (.vpnSigners, a)
  | .storageSignerAdd, .address (some a) => some (.storageSigners, a)
  | .earningSignerAdd, .address (some a) => some (.earningSigners, a)
  | .blockedSenderAdd, .address (some a) => some (.blockedSenders, a)
  | _, _ => none

/-- Lists: the proposal asks to strike this account off this list. -/
def strikes : Kind → Args → Option (Roll × Addr)
  | .governmentRemove, .address (some a) => some (.government, a)
  | .creatorRemove, .address (some a) => some (.creators, a)
  | .rateSignerRemove, .address (some a) => some (.rateSigners, a)
  | .vpnSignerRemove, .address (some a) => some (.vpnSigners, a)
  | .storageSignerRemove, .address (some a) => some (.storageSigners, a)
  | .earningSignerRemove, .address (some a) => some (.earningSigners, a)
  | .blockedSenderRemove, .address (some a) => some (.blockedSenders, a)
  | _, _ => none

/-- The lists that must not become empty. -/
def Roll.needed : Roll → Bool
  | .government | .blockedSenders => false
  | _ => true

/-- The parameters of all modules are ones their validators accept. -/
structure Acceptable (w : World) : Prop where
  bank : 0 ≤ w.bank.dustDelegation ∧ validateFeeParams? w.bank.fee = some true
  delegating : w.delegating.validate? = some true
  noding : w.noding.params.validate? = some true
  profile : w.profile.valid = true
  signers : w.signers ≠ []

/-- The value can be put into force. -/
def Possible (e : Env) (w : World) : Item → Value → Prop
  | .enterPrice, .num n | .vpnPrice, .num n | .storagePrice, .num n | .minDelegate, .num n | .maxValidators, .num n => 1 ≤ n
  | .dust, .num n | .maxFee, .num n => 0 ≤ n
  | .plan, .plan (some p) => e.now < p.time ∧ p.name ∉ w.done
  | _, _ => True

/-! ### Nothing escapes the specification -/

theorem text_inj {a b : Addr} (h : Voting.text a = Voting.text b) : a = b := by
  unfold Voting.text at h; exact (Voting.Name.mk.injEq _ _ _ _ ▸ h).1

theorem map_text_inj {l m : List Addr} (h : l.map Voting.text = m.map Voting.text) : l = m :=
  List.map_injective_iff.2 (fun _ _ => text_inj) h

theorem mem_map_text {a : Addr} {l : List Addr} : Voting.text a ∈ l.map Voting.text ↔ a ∈ l := by
  constructor
  · intro h
    obtain ⟨b, hb, e⟩ := List.mem_map.1 h
    exact text_inj e ▸ hb
  · exact fun h => List.mem_map_of_mem h

/-- Two states that agree on all items, lists, records and the rest are equal. -/
theorem C76_whole {w v : World} (hi : ∀ i, read w i = read v i) (hr : ∀ r, rollOf w r = rollOf v r) (hv : validators w = validators v)
    (ho : rest w = rest v) : w = v := by
  obtain ⟨⟨b1, b2, ⟨f1, f2, f3, f4⟩, b4, b5⟩, ⟨d1, d2, d3, d4⟩, ⟨n1, n2, n3, n4, ⟨p1, p2, p3, p4, p5, p6, p7, p8⟩⟩,
    ⟨q1, q2, q3, q4, q5, q6, q7, q8, q9, q10, q11, q12⟩, t, s, g, pl, dn⟩ := w
  obtain ⟨⟨b1', b2', ⟨f1', f2', f3', f4'⟩, b4', b5'⟩, ⟨d1', d2', d3', d4'⟩, ⟨n1', n2', n3', n4', ⟨p1', p2', p3', p4', p5', p6', p7', p8'⟩⟩,
    ⟨q1', q2', q3', q4', q5', q6', q7', q8', q9', q10', q11', q12'⟩, t', s', g', pl', dn'⟩ := v
  have i1 := hi .enterPrice; have i2 := hi .vpnPrice; have i3 := hi .storagePrice; have i4 := hi .transitionPrice
  have i5 := hi .minSend; have i6 := hi .minDelegate; have i7 := hi .dust; have i8 := hi .maxFee; have i9 := hi .fee; have i10 := hi .split
  have i11 := hi .maxValidators; have i12 := hi .luckyValidators; have i13 := hi .jailAfter; have i14 := hi .minCriteria
  have i15 := hi .votingPower; have i16 := hi .table; have i17 := hi .revoke; have i18 := hi .expressRevoke; have i19 := hi .plan
  have r1 := hr .government; have r2 := map_text_inj (hr .creators); have r3 := map_text_inj (hr .rateSigners)
  have r4 := map_text_inj (hr .vpnSigners); have r5 := map_text_inj (hr .storageSigners); have r6 := map_text_inj (hr .earningSigners)
  have r7 := map_text_inj (hr .blockedSenders)
  simp only [read, Value.num.injEq, Value.portion.injEq, Value.portions.injEq, Value.criteria.injEq, Value.power.injEq, Value.table.injEq,
    Value.revoke.injEq, Value.plan.injEq, Int.natCast_inj, rollOf, validators, rest, Prod.mk.injEq, Rest.mk.injEq] at *
  simp_all

/-! ### Success of the setters -/

theorem bank_ok (p : Bank.Params) : bankValid? p = some true ↔ 0 ≤ p.dustDelegation ∧ validateFeeParams? p.fee = some true := by
  unfold bankValid?
  split
  · rename_i h; simp; intro h'; omega
  · rename_i h; simp only [not_lt] at h; simp [h]

theorem setBank_ok {p : Bank.Params} {w w' : World} {u : Unit} :
    setBank p w = (.ok u, w') ↔ bankValid? p = some true ∧ w' = { w with bank := p } := by
  unfold setBank
  rw [M.panicIf_bind_ok]
  simp only [decide_eq_false_iff_not, not_not, M.modify_apply, Prod.mk.injEq, true_and]
  exact ⟨fun h => ⟨h.1, h.2.symm⟩, fun h => ⟨h.1, h.2.symm⟩⟩

theorem trySetBank_ok {p : Bank.Params} {w w' : World} {u : Unit} :
    trySetBank p w = (.ok u, w') ↔ bankValid? p = some true ∧ w' = { w with bank := p } := by
  unfold trySetBank
  rw [M.orPanic_bind_ok]
  constructor
  · rintro ⟨b, -, h⟩
    exact setBank_ok.1 (M.errIf_bind_ok.1 h).2
  · intro h
    exact ⟨true, h.1, M.errIf_bind_ok.2 ⟨rfl, setBank_ok.2 h⟩⟩

theorem setDelegating_ok {p : Delegating.Params} {w w' : World} {u : Unit} :
    setDelegating p w = (.ok u, w') ↔ p.validate? = some true ∧ w' = { w with delegating := p } := by
  unfold setDelegating
  rw [M.panicIf_bind_ok]
  simp only [decide_eq_false_iff_not, not_not, M.modify_apply, Prod.mk.injEq, true_and]
  exact ⟨fun h => ⟨h.1, h.2.symm⟩, fun h => ⟨h.1, h.2.symm⟩⟩

theorem trySetDelegating_ok {p : Delegating.Params} {w w' : World} {u : Unit} :
    trySetDelegating p w = (.ok u, w') ↔ p.validate? = some true ∧ w' = { w with delegating := p } := by
  unfold trySetDelegating
  rw [M.orPanic_bind_ok]
  constructor
  · rintro ⟨b, -, h⟩
    exact setDelegating_ok.1 (M.errIf_bind_ok.1 h).2
  · intro h
    exact ⟨true, h.1, M.errIf_bind_ok.2 ⟨rfl, setDelegating_ok.2 h⟩⟩

theorem setNoding_ok {p : Noding.Params} {w w' : World} {u : Unit} :
    setNoding p w = (.ok u, w') ↔ p.validate? = some true ∧ w' = { w with noding := { w.noding with params := p } } := by
  unfold setNoding Noding.setParams
  rw [M.get_bind_ok, M.orPanic_bind_ok]
  by_cases h : p.validate? = some true
  · simp only [h, if_true, Option.some.injEq, exists_eq_left', M.modify_apply, Prod.mk.injEq, true_and]
    exact eq_comm
  · simp [h]

theorem setProfile_ok {p : Profile.Params} {w w' : World} {u : Unit} :
    setProfile p w = (.ok u, w') ↔ p.valid = true ∧ w' = { w with profile := p } := by
  unfold setProfile
  rw [M.panicIf_bind_ok]
  simp only [Bool.not_eq_false', M.modify_apply, Prod.mk.injEq, true_and]
  exact ⟨fun h => ⟨h.1, h.2.symm⟩, fun h => ⟨h.1, h.2.symm⟩⟩

theorem setSigners_ok {l : List Addr} {w w' : World} {u : Unit} :
    setSigners l w = (.ok u, w') ↔ l ≠ [] ∧ w' = { w with signers := l } := by
  unfold setSigners
  rw [M.panicIf_bind_ok]
  simp only [List.isEmpty_eq_false_iff, M.modify_apply, Prod.mk.injEq, true_and]
  exact ⟨fun h => ⟨h.1, h.2.symm⟩, fun h => ⟨h.1, h.2.symm⟩⟩

theorem scheduleUpgrade_ok {e : Env} {p : Plan} {w w' : World} {u : Unit} :
    scheduleUpgrade e p w = (.ok u, w') ↔ (p.name ≠ 0 ∧ e.now < p.time ∧ p.name ∉ w.done) ∧ w' = { w with plan := some p } := by
  unfold scheduleUpgrade
  rw [M.get_bind_ok, M.errIf_bind_ok]
  simp only [Bool.or_eq_false_iff, beq_eq_false_iff_ne, decide_eq_false_iff_not, not_le, List.contains_eq_mem, M.modify_apply,
    Prod.mk.injEq, true_and, and_assoc]
  exact ⟨fun h => ⟨h.1, h.2.1, h.2.2.1, h.2.2.2.symm⟩, fun h => ⟨h.1, h.2.1, h.2.2.1, h.2.2.2.symm⟩⟩

/-! ### The lists -/

theorem mem_addTo {l : List Addr} {a b : Addr} : b ∈ addTo l a ↔ b = a ∨ b ∈ l := by
  unfold addTo
  split
  · rename_i h
    rw [List.contains_iff_mem] at h
    exact ⟨Or.inr, fun h' => h'.elim (fun e => e ▸ h) id⟩
  · simp [or_comm]

theorem mem_swapRemove {l : List Addr} {a b : Addr} (hn : l.Nodup) (h : a ∈ l) : b ∈ Earning.swapRemove a l ↔ b ≠ a ∧ b ∈ l := by
  have hp := Earning.swapRemove_perm h
  have hn' := List.nodup_cons.1 (hp.nodup_iff.2 hn)
  constructor
  · intro hb
    exact ⟨fun e => hn'.1 (e ▸ hb), hp.mem_iff.1 (List.mem_cons_of_mem _ hb)⟩
  · rintro ⟨hne, hb⟩
    exact (List.mem_cons.1 (hp.mem_iff.2 hb)).resolve_left hne

theorem mem_removeFrom {l : List Addr} {a b : Addr} (hn : l.Nodup) : b ∈ removeFrom l a ↔ b ≠ a ∧ b ∈ l := by
  unfold removeFrom
  split
  · rename_i h
    exact mem_swapRemove hn (List.contains_iff_mem.1 h)
  · rename_i h
    rw [List.contains_iff_mem] at h
    exact ⟨fun hb => ⟨fun e => h (e ▸ hb), hb⟩, fun hb => hb.2⟩

end Verif.Enact
