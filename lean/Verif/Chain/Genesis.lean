import Verif.Chain.Money
import Verif.Delegating.Interest
import Verif.Base.Rebuild

/-! Property C54: export and import of the bank and delegating modules. -/
namespace Verif

namespace Bank
open Verif.Util

/-- The balances of `ExportGenesis`, genesis.go:39-45 with `GetAccountsBalances`, view.go:77-89: all stored balances in the order of
the keys.  (Parameters and supply are exported as they are.) -/
def exportBalances (b : State) : List InOut := b.balances.entries.map fun x => ⟨x.1, x.2⟩

/-- What is stored is valid and not empty. -/
def Tidy (b : State) : Prop := ∀ a c, b.balances.get a = some c → c.valid = true ∧ c.isEmpty = false

theorem setBalance_tidy (e : Env) (a : Addr) (c : Coins) : M.Preserves Tidy (setBalance e a c) := by
  intro s hs
  rw [setBalance_apply]
  split
  · rename_i hc
    intro x y h
    simp only [withBalance] at h
    split at h
    · rw [KV.get_erase] at h
      split at h
      · cases h
      · exact hs _ _ h
    · rename_i hne
      rw [KV.get_set] at h
      split at h
      · injection h with h; subst h; exact ⟨hc, by simpa using hne⟩
      · exact hs _ _ h
  · exact hs

theorem subtractCoins_tidy (e : Env) (a : Addr) (c : Coins) : M.Preserves Tidy (subtractCoins e a c) :=
  .bind (.errIf _) fun _ => .bind .get fun _ => .bind (.errIf _) fun _ => setBalance_tidy e a _

theorem addCoins_tidy (e : Env) (a : Addr) (c : Coins) : M.Preserves Tidy (addCoins e a c) :=
  .bind (.errIf _) fun _ => .bind .get fun _ => .bind (.panicIf _) fun _ => setBalance_tidy e a _

theorem sendCoins_tidy (e : Env) (a b : Addr) (c : Coins) : M.Preserves Tidy (sendCoins e a b c) :=
  .bind (subtractCoins_tidy e a c) fun _ => addCoins_tidy e b c

theorem inflate_tidy (c : Coins) : M.Preserves Tidy (inflate c) := .modify fun _ h => h

theorem deflate_tidy (c : Coins) : M.Preserves Tidy (deflate c) := by
  intro s hs
  unfold deflate
  simp only [M.bind_apply, M.get_apply]
  cases h : (s.supply.sub c).valid <;> simp <;> exact hs

theorem burnAccCoins_tidy (e : Env) (a : Addr) (c : Coins) : M.Preserves Tidy (burnAccCoins e a c) :=
  .bind (subtractCoins_tidy e a c) fun _ => deflate_tidy c

theorem inputOutputCoins_tidy (e : Env) (i o : List InOut) : M.Preserves Tidy (inputOutputCoins e i o) :=
  .bind (.errIf _) fun _ => .bind (.forEach fun _ _ => subtractCoins_tidy e _ _) fun _ =>
    .forEach fun _ _ => addCoins_tidy e _ _

theorem payTxFee_tidy (e : Env) (a : Addr) (c : Coins) : M.Preserves Tidy (payTxFee e a c) := by
  refine .bind .get fun b => .bind (.orPanic _) fun fee => ?_
  split
  · exact .pure _
  · exact .bind (sendCoins_tidy e a _ _) fun _ => .pure _

theorem op_tidy (e : Env) (op : Op) : M.Preserves Tidy (op.run e) := by
  cases op with
  | send m =>
    exact .bind (.errIf _) fun _ => .bind (.errIf _) fun _ => .bind (.errIf _) fun _ => .bind (.errIf _) fun _ =>
      .bind (.errIf _) fun _ => .bind .get fun _ => .bind (.panicIf _) fun _ => .bind (.errIf _) fun _ =>
      .bind (.errIf _) fun _ => .bind (payTxFee_tidy e _ _) fun _ => sendCoins_tidy e _ _ _
  | burn a n => exact .bind (.errIf _) fun _ => .bind (.panicIf _) fun _ => burnAccCoins_tidy e a _
  | multi i o => exact inputOutputCoins_tidy e i o
  | payFee a c => exact .bind (payTxFee_tidy e a c) fun _ => .pure _
  | mint a mi c => exact .bind (.panicIf _) fun _ => .bind (addCoins_tidy e a c) fun _ => inflate_tidy c
  | burnModule a bu c => exact .bind (.panicIf _) fun _ => .ignoreErr (burnAccCoins_tidy e a c)

theorem initGenesis_tidy (e : Env) (p : Params) (bals : List InOut) (supply : Coins) (b0 : State) :
    Tidy (initGenesis e p bals supply b0).2 := by
  have h0 : Tidy ⟨KV.empty, {}, p⟩ := fun a c h => by simp at h
  have : M.Preserves Tidy (M.forEach bals (fun x => setBalance e x.addr x.coins) >>= fun _ =>
      M.modify fun b => { b with supply := if supply.isEmpty then totalCoins bals else supply }) :=
    .bind (.forEach fun _ _ => setBalance_tidy e _ _) fun _ => .modify fun _ h => h
  exact this _ h0

theorem initGenesis_export {e : Env} (he : HooksOk e) {s : State} (hs : Tidy s)
    (hz : s.supply.isEmpty = true → ∀ d, s.balances.sum (fun _ c => c.amt d) = 0) (b0 : State) :
    initGenesis e s.params (exportBalances s) s.supply b0 = (.ok (), s) := by
  have key : ∀ (l : List (Nat × Coins)) (b : State), (∀ x ∈ l, x.2.valid = true ∧ x.2.isEmpty = false) →
      M.forEach (l.map fun x => (⟨x.1, x.2⟩ : InOut)) (fun x => setBalance e x.addr x.coins) b =
        (.ok (), { b with balances := l.foldl (fun acc x => acc.set x.1 x.2) b.balances }) := by
    intro l
    induction l with
    | nil => intro b _; rfl
    | cons x l ih =>
      intro b hl
      have hx := hl x (by simp)
      have h1 : setBalance e x.1 x.2 b = (.ok (), { b with balances := b.balances.set x.1 x.2 }) := by
        rw [setBalance_apply, if_pos hx.1]
        simp only [withBalance, hx.2]
        rw [he]
        rfl
      rw [List.map_cons, M.forEach_cons, M.bind_ok h1, ih _ (fun y hy => hl y (by simp [hy]))]
      rfl
  have h1 : M.forEach (exportBalances s) _ _ = _ := key s.balances.entries ⟨KV.empty, {}, s.params⟩ (fun x hx => hs x.1 x.2 (KV.mem_entries.1 hx))
  have h2 := KV.rebuild s.balances id id (fun _ _ => rfl)
  rw [List.map_id] at h2
  simp only [id] at h2
  unfold initGenesis
  rw [M.bind_ok (M.set_apply _ _), M.bind_ok h1, M.modify_apply]
  have h3 : (if s.supply.isEmpty = true then totalCoins (exportBalances s) else s.supply) = s.supply := by
    split
    · rename_i hemp
      have h0 : s.supply = {} := by simpa [Coins.isEmpty] using hemp
      have hd : ∀ d, (totalCoins (exportBalances s)).amt d = 0 := by
        intro d
        rw [totalCoins_amt, ← hz hemp d]
        unfold exportBalances KV.sum
        rw [List.map_map]; rfl
      rw [h0]
      have := hd .main; have := hd .delegated; have := hd .revoking; have := hd .other
      simp only [Coins.amt] at *
      cases h : totalCoins (exportBalances s)
      simp_all
    · rfl
  simp only [h2, h3]

end Bank

namespace Delegating

theorem initAccounts_export {m : KV Nat Record} (h : ∀ a r, m.get a = some r → r.missedPart = none) : initAccounts (exportAccounts m) = m := by
  have := KV.rebuild m (fun x => (x.1, x.2.nextAccrue, x.2.requests))
    (fun x : Nat × Option Int × List Request => (x.1, ({ nextAccrue := x.2.1, requests := x.2.2 } : Record))) (by
      rintro ⟨a, r⟩ hx
      have := h a r (KV.mem_entries.1 hx)
      cases r
      simp_all)
  exact this

end Delegating

namespace Chain
open Verif.Util Verif.Bank
open Verif.Delegating hiding Addr

/-- Tidiness of the balances of the whole. -/
def TidyAll (s : Delegating.State) : Prop := Tidy s.bank

theorem onBank_tidy {α : Type} {m : M Bank.State α} (h : M.Preserves Tidy m) : M.Preserves TidyAll (onBank m) := fun s hs => h s.bank hs

theorem mustBank_tidy {m : M Bank.State Unit} (h : M.Preserves Tidy m) : M.Preserves TidyAll (mustBank m) := fun s hs => h s.bank hs

theorem onSched_tidy (r : Schedule.Req) : M.Preserves TidyAll (onSched r) := by
  intro s hs
  unfold onSched
  cases r.exec? s.sched <;> exact hs

theorem setRecords_tidy (f : Delegating.State → KV Nat Record) :
    M.Preserves TidyAll (M.modify fun s : Delegating.State => { s with records := f s }) := .modify fun _ hs => hs

theorem convert_tidy (e : Delegating.Env) (a : Addr) (minus plus : Coins) : M.Preserves TidyAll (convert e a minus plus) :=
  .bind (.panicIf _) fun _ => .bind (onBank_tidy (subtractCoins_tidy _ _ _)) fun _ => .bind (.panicIf _) fun _ =>
    .bind (onBank_tidy (addCoins_tidy _ _ _)) fun _ => .bind (onBank_tidy (deflate_tidy _)) fun _ => onBank_tidy (inflate_tidy _)

theorem accrue_tidy (e : Delegating.Env) (a : Addr) (u : Int) : M.Preserves TidyAll (accrue e a u) := by
  unfold accrue
  split
  · exact .pure _
  split
  · exact .pure _
  refine .bind (.panicIf _) fun _ => .bind (onBank_tidy (inflate_tidy _)) fun _ => .bind .get fun s => .bind (.orPanic _) fun fee => ?_
  split
  · exact mustBank_tidy (addCoins_tidy _ _ _)
  · exact .bind (.panicIf _) fun _ => .bind (.panicIf _) fun _ => .bind (mustBank_tidy (addCoins_tidy _ _ _)) fun _ =>
      mustBank_tidy (addCoins_tidy _ _ _)

theorem accrueToValidator_tidy (e : Delegating.Env) (a : Addr) (u : Int) : M.Preserves TidyAll (accrueToValidator e a u) := by
  unfold accrueToValidator
  split
  · exact .pure _
  split
  · exact .pure _
  refine .bind (.orPanic _) fun fees => .bind (.orPanic _) fun ot => ?_
  split
  split
  · exact .pure _
  · exact .bind (.forEach fun _ _ => mustBank_tidy (addCoins_tidy _ _ _)) fun _ => .bind (.panicIf _) fun _ => onBank_tidy (inflate_tidy _)

theorem accruePart_tidy (e : Delegating.Env) (a : Addr) (item : Record) (np : Int) : M.Preserves TidyAll (accruePart e a item np) := by
  unfold accruePart
  split
  · exact .pure _
  refine .bind .get fun s => .bind (.orPanic _) fun ij => .bind ?_ fun _ => .bind (onSched_tidy _) fun _ => .pure _
  unfold payInterest
  split
  · exact .bind (accrue_tidy _ _ _) fun _ => accrueToValidator_tidy _ _ _
  · exact .pure _

theorem planAccrue_tidy (e : Delegating.Env) (a : Addr) (d : Int) (item : Record) : M.Preserves TidyAll (planAccrue e a d item) := by
  refine .bind .get fun s => .bind (.orPanic _) fun x => ?_
  split
  · exact .pure _
  · exact .bind (onSched_tidy _) fun _ => .pure _

theorem revoke_tidy (e : Delegating.Env) (a : Addr) (u : Int) (x : Bool) : M.Preserves TidyAll (revoke e a u x) := by
  unfold revoke
  split
  · exact .pure _
  refine .bind .get fun s => .bind (.errIf _) fun _ => .bind (accruePart_tidy _ _ _ _) fun item => .bind (.orPanic _) fun ur =>
    .bind ?_ fun _ => .bind (planAccrue_tidy _ _ _ _) fun item2 => .bind (setRecords_tidy _) fun _ => onSched_tidy _
  unfold freeze
  split
  · exact .pure _
  · exact convert_tidy _ _ _ _

theorem delegateMsg_tidy (e : Delegating.Env) (a : Addr) (u : Int) : M.Preserves TidyAll (delegateMsg e a u) := by
  refine .bind .get fun s => .bind (.errIf _) fun _ => .bind (.panicIf _) fun _ => .bind (onBank_tidy (payTxFee_tidy _ _ _)) fun fee => .bind .get fun s =>
    .bind (accruePart_tidy _ _ _ _) fun item => .bind ?_ fun _ => .bind .get fun s => .bind (planAccrue_tidy _ _ _ _) fun item => setRecords_tidy _
  unfold Delegating.delegate
  split
  · exact .pure _
  · exact convert_tidy _ _ _ _

theorem payDue_tidy (e : Delegating.Env) (a : Addr) (l : List Request) : M.Preserves TidyAll (payDue e a l) := by
  induction l with
  | nil => exact .pure _
  | cons r l ih =>
    unfold payDue
    split
    · exact .pure _
    refine .bind ?_ fun _ => ih
    unfold undelegate
    split
    · exact .pure _
    · exact convert_tidy _ _ _ _

theorem performRevoking_tidy (e : Delegating.Env) (a : Addr) : M.Preserves TidyAll (performRevoking e a) := by
  refine .bind .get fun s => ?_
  split
  · exact .pure _
  · dsimp only
    refine .bind (payDue_tidy _ _ _) fun _ => ?_
    split
    · exact .pure _
    · exact setRecords_tidy _

theorem performAccrue_tidy (e : Delegating.Env) (a : Addr) (time : Int) : M.Preserves TidyAll (performAccrue e a time) := by
  refine .bind .get fun s => .bind (.panicIf _) fun _ => .bind (.orPanic _) fun f => .bind (.orPanic _) fun pc => ?_
  split
  · exact setRecords_tidy _
  · exact .bind (.orPanic _) fun ij => .bind (accrue_tidy _ _ _) fun _ => .bind (accrueToValidator_tidy _ _ _) fun _ =>
      .bind (onSched_tidy _) fun _ => setRecords_tidy _

theorem onBanished_tidy (e : Delegating.Env) (a : Addr) : M.Preserves TidyAll (onBanished e a) := by
  refine .bind .get fun s => ?_
  dsimp only
  split
  · exact .pure _
  · exact revoke_tidy _ _ _ _

theorem payReward_tidy (e : Bank.Env) (a : Addr) : M.Preserves Tidy (Noding.payReward e a) := by
  have hm : ∀ x y v, M.Preserves Tidy (Noding.sendMain e x y v) := by
    intro x y v
    refine .bind (.panicIf _) fun _ => ?_
    split
    · exact .pure _
    · exact sendCoins_tidy _ _ _ _
  have hb : ∀ x v, M.Preserves Tidy (Noding.burnMain e x v) := by
    intro x v
    refine .bind (.panicIf _) fun _ => ?_
    split
    · exact .pure _
    · exact burnAccCoins_tidy _ _ _
  refine .bind (.bind .get fun b => ?_) fun _ => .bind .get fun b => ?_
  · split
    · exact .pure _
    · exact sendCoins_tidy _ _ _ _
  · exact .bind (.orPanic _) fun p => .bind (hm _ _ _) fun _ => .bind (hm _ _ _) fun _ => hb _ _

/-- What the round trip needs of a state. -/
structure Exportable (s : Delegating.State) : Prop where
  tidy : Tidy s.bank
  noMissed : NoMissed s

theorem act_exportable (e : Delegating.Env) (x : Act) {s : Delegating.State} (hs : Exportable s) : Exportable (x.run e s) := by
  have hb : ∀ {b : Bank.State}, Tidy b → Exportable { s with bank := b } := fun h => ⟨h, hs.noMissed⟩
  have ht : TidyAll s := hs.tidy
  cases x with
  | bank op => exact hb ((op_tidy _ _).tx hs.tidy)
  | gas a c => exact hb ((sendCoins_tidy _ _ _ _).tx hs.tidy)
  | delegate a u =>
    exact ⟨(M.Preserves.bind (.errIf _) fun _ => delegateMsg_tidy e a u).tx ht,
      Clean.tx (.bind (errIf_clean _) fun _ _ => delegateMsg_clean _ _ _) hs.noMissed⟩
  | revoke a u x =>
    exact ⟨(M.Preserves.bind (.errIf _) fun _ => revoke_tidy e a u x).tx ht,
      Clean.tx (.bind (errIf_clean _) fun _ _ => revoke_clean _ _ _ _) hs.noMissed⟩
  | releaseTask a => exact ⟨performRevoking_tidy e a s ht, (performRevoking_clean e a s hs.noMissed).1⟩
  | accrueTask a time => exact ⟨performAccrue_tidy e a time s ht, (performAccrue_clean e a time s hs.noMissed).1⟩
  | banished a => exact ⟨onBanished_tidy e a s ht, (onBanished_clean e a s hs.noMissed).1⟩
  | reward a => exact hb (payReward_tidy _ _ _ hs.tidy)
  | pay x y c => exact hb (sendCoins_tidy _ _ _ _ _ hs.tidy)
  | fee x c => exact hb (payTxFee_tidy _ _ _ _ hs.tidy)
  | tariff i outs => exact hb (inputOutputCoins_tidy _ _ _ _ hs.tidy)
  | bankParams p => exact hb hs.tidy
  | params p => exact ⟨hs.tidy, hs.noMissed⟩
  | sched f => exact ⟨hs.tidy, hs.noMissed⟩

theorem history_exportable (l : List (Delegating.Env × Act)) {s : Delegating.State} (hs : Exportable s) : Exportable (history l s) := by
  induction l generalizing s with
  | nil => exact hs
  | cons x l ih => exact ih (act_exportable x.1 x.2 hs)

/-- Imported records miss nothing. -/
theorem initAccounts_noMissed (l : List (Addr × Option Int × List Request)) : ∀ a r, (initAccounts l).get a = some r → r.missedPart = none := by
  have : ∀ (l : List (Addr × Option Int × List Request)) (m : KV Nat Record), (∀ a r, m.get a = some r → r.missedPart = none) →
      ∀ a r, (l.foldl (fun m x => m.set x.1 { nextAccrue := x.2.1, requests := x.2.2 }) m).get a = some r → r.missedPart = none := by
    intro l
    induction l with
    | nil => intro m hm; exact hm
    | cons x l ih =>
      intro m hm
      refine ih _ fun a r h => ?_
      rw [KV.get_set] at h
      split at h
      · injection h with h; subst h; rfl
      · exact hm _ _ h
  exact this l KV.empty (by simp)

/-- C54: take any genesis file that imports, and any history of the chain since.  Exporting the bank and the delegating module and
importing the files into any other chain yields exactly the same balances, supply, parameters and delegation records.  The condition
on the supply excludes a state with coins but an empty recorded supply, see `C54_sound_history` for why it cannot arise. -/
theorem C54_export_import (eb : Bank.Env) (pb : Bank.Params) (bals : List InOut) (supply : Coins) (b0 b : Bank.State)
    (accs : List (Addr × Option Int × List Request)) (sched : Schedule.State) (p : Delegating.Params)
    (h : initGenesis eb pb bals supply b0 = (.ok (), b)) (l : List (Delegating.Env × Act)) (s : Delegating.State)
    (hl : history l ⟨b, initAccounts accs, sched, p⟩ = s) (hz : s.bank.supply = {} → ∀ d, s.bank.balances.sum (fun _ c => c.amt d) = 0)
    (e : Bank.Env) (he : HooksOk e) (any : Bank.State) :
    initGenesis e s.bank.params (exportBalances s.bank) s.bank.supply any = (.ok (), s.bank) ∧
    initAccounts (exportAccounts s.records) = s.records := by
  have h0 : Exportable ⟨b, initAccounts accs, sched, p⟩ := by
    refine ⟨?_, fun x => ?_⟩
    · have := initGenesis_tidy eb pb bals supply b0
      rw [h] at this; exact this
    · unfold getRecord
      cases hg : (initAccounts accs).get x with
      | none => rfl
      | some r => exact initAccounts_noMissed accs x r hg
  have h1 : Exportable s := hl ▸ history_exportable l h0
  refine ⟨initGenesis_export he h1.tidy (fun hemp => hz (by simpa [Coins.isEmpty] using hemp)) any, initAccounts_export fun a r hr => ?_⟩
  have := h1.noMissed a
  unfold getRecord at this
  rw [hr] at this
  exact this

/-- C54: under the conditions of C06 (supply left to be computed at genesis, accepted parameters, hooks that do not fail), without a
condition on the supply. -/
theorem C54_sound_history (eb : Bank.Env) (pb : Bank.Params) (bals : List InOut) (b0 b : Bank.State)
    (accs : List (Addr × Option Int × List Request)) (sched : Schedule.State) (p : Delegating.Params) (hnd : (bals.map InOut.addr).Nodup)
    (hf : validateFeeParams? pb.fee = some true ∧ pb.fee.rate.denom ≠ 0 ∧ pb.fee.rate.toRat ≤ 1) (hp : p.validate? = some true)
    (h : initGenesis eb pb bals {} b0 = (.ok (), b)) (l : List (Delegating.Env × Act)) (hl : ∀ x ∈ l, EnvOk x.1 ∧ x.2.Ok)
    (e : Bank.Env) (he : HooksOk e) (any : Bank.State) :
    let s := history l ⟨b, initAccounts accs, sched, p⟩
    initGenesis e s.bank.params (exportBalances s.bank) s.bank.supply any = (.ok (), s.bank) ∧
    initAccounts (exportAccounts s.records) = s.records := by
  intro s
  have hsum := C06_from_genesis_partial eb pb bals b0 b (initAccounts accs) sched p hnd hf hp h l hl
  refine C54_export_import eb pb bals {} b0 b accs sched p h l s rfl (fun h0 d => ?_) e he any
  have := hsum d
  rw [← this]
  show s.bank.supply.amt d = 0
  rw [h0]
  cases d <;> rfl

/-- A record as a migration leaves it: a third of the current day is not to be paid (app/upgrade.go:371, 378). -/
def migratedRecords : KV Nat Record := KV.empty.set 5 { nextAccrue := some 1000, missedPart := some ⟨1, 3⟩ }

/-- C54, the limit: the missed part of the day that a migration writes is not part of the file, so after an export on that very day
the account is paid for the whole day. -/
theorem C54_missed_part_is_lost : initAccounts (exportAccounts migratedRecords) ≠ migratedRecords ∧
    (initAccounts (exportAccounts migratedRecords)).get 5 = some { nextAccrue := some 1000 } := by decide +kernel

/-- A genesis file for the example. -/
def exampleBalances : List InOut := [⟨5, ⟨200000, 0, 0, 0⟩⟩, ⟨6, ⟨0, 0, 0, 7⟩⟩]

/-- The bank after importing it. -/
def exampleImported : Bank.State := (initGenesis (exampleEnvAt 0).bank exampleStart.bank.params exampleBalances {} exampleStart.bank).2

/-- The hypotheses of `C54_sound_history` are met by a chain on which coins were delegated, interest paid, a part revoked … -/
example : (exampleBalances.map InOut.addr).Nodup ∧
    (initGenesis (exampleEnvAt 0).bank exampleStart.bank.params exampleBalances {} exampleStart.bank).1 = .ok () ∧
    (∀ x ∈ exampleHistory, EnvOk x.1 ∧ x.2.Ok) ∧ HooksOk (exampleEnvAt 0).bank := by
  refine ⟨by decide, by decide +kernel, ?_, (exampleEnv_ok 0 (by decide) (by decide)).toEnvOk.hooks⟩
  intro x hx
  simp only [exampleHistory, List.mem_cons, List.not_mem_nil, or_false] at hx
  rcases hx with rfl | rfl | rfl | rfl | rfl | rfl | rfl | rfl <;> exact ⟨(exampleEnv_ok _ (by decide) (by decide)).toEnvOk, trivial⟩

/-- … and its files are not trivial (the same history, before and after the release of the revoked coins). -/
example : exportBalances (history exampleHistory ⟨exampleImported, KV.empty, exampleStart.sched, exampleStart.params⟩).bank =
      [⟨5, ⟨137185, 59697, 0, 0⟩⟩, ⟨6, ⟨2209, 3, 0, 7⟩⟩, ⟨7, ⟨124, 0, 0, 0⟩⟩, ⟨8, ⟨200, 0, 0, 0⟩⟩, ⟨9, ⟨90, 0, 0, 0⟩⟩] ∧
    exportAccounts (history exampleHistory ⟨exampleImported, KV.empty, exampleStart.sched, exampleStart.params⟩).records =
      [(5, some 2500, [])] := by decide +kernel

example : exportAccounts (history (exampleHistory.take 7) ⟨exampleImported, KV.empty, exampleStart.sched, exampleStart.params⟩).records =
    [(5, some 2500, [⟨4500, 38000⟩])] := by decide +kernel

end Chain
end Verif
