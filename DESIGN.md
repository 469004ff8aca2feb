# Formal model of the Artery chain (arterynetwork/artr)

This directory holds a Lean 4 model of the state machines in `/repo` (a Cosmos SDK 0.42.6 chain) and machine-checked proofs of the
properties listed in `properties.jsonl`.  `MANIFEST.json` says which theorems settle which property and with which status.
`seeded/LOG.jsonl` is the log of mutation tests (wrong programs that the theorems have to reject).

## 1. Trusted base

* The Lean 4.33.0 kernel, and Mathlib as installed (individual modules are imported, never all of it).
* Axioms: every property theorem depends on a subset of `propext`, `Classical.choice`, `Quot.sound` (checked with `#print axioms`; the
  list per theorem is in section 6).  No axioms of our own, no `sorry`, no `native_decide`, no `bv_decide`.  Concrete witnesses are
  evaluated by the kernel (`decide +kernel`), which adds no axiom.
* The reading of the Go code into Lean definitions.  Every definition carries the file and lines it models and says where it simplifies.
  Nothing was executed; the code was read as text.
* The facts about code outside the repository (Cosmos SDK, Tendermint, Go library) in section 3.

Not modelled at all: `app/upgrade.go` (one-off migrations, except the two that move money, C79, the validators of 2.2.0, C93, the refresh of statuses, C80, version 2.5.8, C82, the dates and tasks of 2.4.3 to 2.4.5, C86 and C87, the recount of 2.0.1, C88, the banishments of 2.1.0, C95, the parameters added by 2.2.0 and 2.4.2 to 2.4.8, C96, version 2.3.2, C89 and C90, and the store emptied by 2.5.0, C106), the other parts of the script `patch-genesis` (C94), CLI and REST clients, gRPC gateways, simulation code, which events are emitted (the form of their attributes is, C91), logs,
telemetry, gas metering (a loop that never ends inside a transaction counts as a failure), protobuf/amino codecs, the JSON form of
genesis files, `x/upgrade` and the other SDK modules, signature checking (the signer named in a message is taken as authenticated).

## 2. Layout

* `lean/Verif/Base/M.lean` – the execution monad (section 3); `Base/KV.lean` – finite sorted key-value store (`Base/Rebuild.lean`: rebuilt from its entries).
* `lean/Verif/Util` – `/repo/util/fraction.go`, `fee.go`.
* `lean/Verif/Bank`, `Schedule`, `Delegating`, `Noding`, `Voting`, `Profile`, `Earning`, `Referral` – one directory per module of `/repo/x`:
  `Model.lean` is the model, `Props.lean` (plus the files named in section 4) the property theorems and their witnesses, everything else lemmas.
* `lean/Verif/Chain` – several modules together: all money movements of the chain, genesis, the effects of proposals, the script that moves version 1 to version 2 (`Chain/Patch`).

Property theorems are stated against small specifications that do not mention helpers of the model: rational numbers, sums over account
lists, multisets of tasks, tree descendants, the list of reports so far, … A specification is defined right before the theorem it is for.

## 3. Conventions and outside facts

Execution

* `M σ α = σ → Res α × σ` with `Res = ok a | err | panic`: the state is kept on failure, because begin-block code and scheduled tasks run
  without a cache context and keep partial writes (the scheduler recovers panics).  `M.tx m s` is a transaction: it returns the old state on failure.
* Some models with simpler failure behaviour (Noding, Schedule) use `Option State`, where the code checks everything before writing.
* Loops that follow pointers through a store take a bound (number of stored records + 2); reaching the bound is a panic.  For the referral
  structure `C26_walk_ends` and `openAncestor_ends` show that the bound is never reached on reachable structures.

Data

* Addresses are natural numbers (the address bytes read as a big-endian number, so that numeric order is iteration order).  Modules that store
  address *texts* (voting, referral) get texts: an address with a spelling.  Fact: `sdk.AccAddressFromBech32` accepts all-lowercase and
  all-uppercase, `AccAddress.String` writes lowercase; both spellings decode to the same account and pass `GetSigners`.
* `sdk.Int` and `big.Int` are unbounded integers; the overflow panic at 2^255 is not modelled.  `Int64()` conversions, 64-bit and 32-bit
  products, and unsigned subtractions are modelled where the code performs them and where they matter (fees, tariff, VPN limits, paging).
* Coin sets are records with one integer per denomination `uartr`, `uartrd`, `uartrr` and one component for any other denomination.  Zero means absent.
  Facts: `sdk.NewCoin` and `Coins.Sub` panic on negative amounts, `IsAnyGT` ignores zero amounts.
* Times are integers, nanoseconds since the Unix epoch, UTC.  Ranges of `time.Time` matter only for schedule keys (C15), where they are modelled.
* Stores: what is written is read back (codec round trip assumed); decoding an absent value gives the zero message, no error
  (`ProtoCodec.UnmarshalBinaryBare(nil)`); `cachekv` iterators see a snapshot; iteration is in ascending key order.  An iterator whose first key is
  not below its last one shows nothing (C98).
* Parameters (C96): `Subspace.Get` panics if there is nothing under the key; `SetParamSet` validates each value and panics if it is refused.
* Iterators over a cached store (C95) show what was there when they were made; a key that is deleted or written meanwhile makes no difference.
* Python (C94): `//` rounds down; `datetime` covers the years 1 to 9999 and raises `OverflowError` outside; `bech32` turns 20 bytes into the text of the address and back.
* JSON of events (C91): `codec.ProtoMarshalJSON` writes texts as JSON strings with the escapes of `encoding/json` (Go 1.15, HTML escaping on);
  `json.RawMessage` keeps the text of a value.

Wiring (`app/app.go` 235-520)

* Bank's blocked addresses are empty; the bank hook `SetCoins` is referral's `OnBalanceChanged`, its errors propagate.
* Begin block: upgrade, noding, referral (empty), delegating, schedule.  End block: noding.  Init genesis: schedule, auth, referral, bank,
  profile, delegating, noding, voting, earning.
* Gas fees are deducted by the SDK's ante handler, in any denomination.

Per module

* Bank: module accounts are ordinary addresses; the hook is an oracle that may fail or panic but does not touch the bank store.  `HooksOk` = it succeeds.
* Delegating: other modules are an arbitrary environment per operation; `EnvOk` bounds what they answer: the hook succeeds and the ratios from
  the referral module meet `RatiosOk`, which `C25_ratios_ok` proves of the referral model.  `sort.Slice` is a stable sort (the order of requests with
  equal times is not observable in any statement).
* Schedule: handlers are arbitrary functions making schedule/delete requests and possibly panicking; `id` of a task is a ghost field.
* Noding: consensus addresses are identified with public keys; scores, counters and lottery numbers are unbounded; `int64(math.Log(x))` is
  an arbitrary function; `sort.Slice` is any function that returns a sorted permutation (`SortOk`); of infractions only the number is kept.
  Fact about Tendermint: `ValidatorSet.UpdateWithChangeSet` rejects a list with duplicate keys and removals of unknown keys (C28), and one that leaves
  no validator or a power of more than 2^60 - 1 in total (C97; left out in C28).
* Voting: what an enacted proposal does outside the module is an arbitrary function; government membership is concrete.
* Profile: text operations (`ToLower`, `TrimSpace`, `ToTitle` prefix test) are a parameter with the laws `TextOk` (lower is idempotent, trim
  commutes with lower, …; satisfied by the ASCII instance `ascii`); the referral keeper is an oracle that makes schedule requests
  for its own hooks only; 64-bit fields are naturals with explicit wrap-around; executions start without profiles, the import of profiles is treated separately (C56).
* Earning: texts are identified with the addresses they parse to; day length constant within an execution.
* Referral: payments inside `PayTariff` are separate `balance` steps; a callback into another module only succeeds or fails (what it does
  to the balances is covered by later `balance` steps); the status-only `Iterate` at genesis is not modelled.

* Effects of proposals (Chain/Enact): texts of addresses in parameters are canonical; `ScheduleUpgrade` of the SDK refuses plans whose time has passed
  or whose name was done, and otherwise replaces the plan; a setter of the parameter store panics when a validator refuses.

## 4. Properties

File names are relative to `lean/Verif`.  "Violation" = a theorem that exhibits a concrete execution of the model on which the property fails; the
remaining truth is then in a theorem with suffix `_partial`, and the hypotheses added are those named.

| id | status | modelled | how proved; what is missing |
|----|--------|----------|------|
| C01 | proved | `util/fraction.go` text form, with base detection of `big.Int` scanning (Util) | algebraic round trip over digit lists |
| C02 | proved | all of the `Fraction` arithmetic (Util) | comparison with ℚ |
| C03 | partial | `util/fee.go` (Util) | optimality specification `AllowedFee`; needs rate·amount < 2^63; violation for accepted rates above 1 |
| C04 | proved | fee splitting (Util) | rational arithmetic |
| C05 | partial | bank parameter validation (Util, Bank) | violation: rate 1/0 is accepted |
| C06 | partial | Bank, Delegating, Noding reward, Profile payments, gas (Chain/Money) | invariant over all interleavings; needs sane fee rate, succeeding hooks, genesis without explicit supply; violations for the others |
| C07 | proved | Bank | invariant over all bank operations, also failing half-way |
| C08 | proved | `Send` (Bank) | exact effect on every account and denomination |
| C09 | proved | `Send` (Bank) | iff-characterisation; hypotheses: hooks succeed, accepted fee parameters with rate in [0,1], min_send ≥ 0 |
| C10 | partial | burns (Bank) | exact effect; violation: `BurnCoins` of a module account swallows the error |
| C11 | proved | `InputOutputCoins` (Bank) | sums over inputs and outputs |
| C12 | proved | `PayProposerReward` (Noding/Reward) | exact effect theorem over the bank model |
| C13–C17 | proved | Schedule | executions with arbitrary handlers; pending tasks as lists keyed by time; ghost ids; byte keys compared lexicographically |
| C18 | proved | Delegating + Bank + Schedule | invariant by induction over transactions, blocks, other modules' steps |
| C19 | proved | `Delegate` | exact effect, with and without running interest |
| C20 | proved | `Revoke`, `performRevoking` | exact effect; temporal: waits, released in the first due block, exactly once |
| C21 | partial | table lookup, table validation | ℚ specification; violation: zero denominators are accepted |
| C22 | partial | accruals | exact effect `Paid`; the values of interest and bonus base are those of C52 |
| C23 | partial | Referral | forest invariant over all executions; violation: account created as its own referrer |
| C24 | partial | Referral | descendants at depth L as specification; sums via a defect calculus; level ≤ 9 with compression (10 if it happens outside lines of ten levels, `Shallow`), nobody with referrals banished (`C24_orderly_partial`: from C74); violations for both |
| C25 | proved | `GetReferralValidatorFees…` (Referral/Fees) | induction over the ladder |
| C26 | partial | transitions (Referral) | cycle freedom by the forest invariant; violation with upper-case spelling |
| C27 | partial | transitions (Referral) | exact effects; violation with upper-case spelling |
| C28 | partial | Noding + a model of the engine's validator set | refinement; every key used by one account only; violations otherwise |
| C29 | partial | `GatherValidatorUpdates` | counting, sortedness; number of lucky ones needs no stake drop of queued validators; violation |
| C30 | proved | voting power generator | specification of slices in ℚ |
| C31, C32 | proved | Noding | temporal invariants over all executions; streak of missed blocks defined on the history |
| C33 | partial | Noding | violation: `OnStakeChanged` returns before saving |
| C34 | partial | lottery queue | one-to-one correspondence and order; violation from the same defect |
| C35, C36, C38 | partial | Voting | invariants and exact outcomes; canonical spelling needed; violations with upper-case texts |
| C37 | partial | Voting | violation: a member is admitted twice and blocks all later proposals |
| C39 | partial | Profile | index invariants; violation: nickname with blanks |
| C40 | proved | Profile | index invariants; account numbers are fresh and the card number is their exclusive-or with a constant |
| C41 | proved | `PayTariff` | exact effect against a price list in ℚ |
| C42, C48 | partial | Profile | violation: message that creates an account may carry a subscription |
| C43 | partial | `resetLimits` | violation: wrap-around |
| C44 | proved | storage | exact effect |
| C45 | proved | Earning | refinement to "last report" over the history |
| C46 | partial | Earning | violation: signers never checked |
| C47 | partial | `PayTariff` | violation: 64-bit wrap-around |
| C49 | proved | Earning genesis | round trip |
| C50 | partial | Earning query | violation: 32-bit wrap-around |
| C51 | partial | Referral + Schedule | violation: stale timeout of a declined request; otherwise an invariant over all sequences of blocks and operations (`Wait.lean`: the pending request and its timeout are on record and no earlier timeout of the account is planned), if no request of the account was accepted within the last day |
| C52 | proved | accruals (Delegating/Interest) | ℚ specification of rate and part of the day; exact values of the 64-bit computation; invariant that no part of a day is missed |
| C53 | proved | `GetAccumulation` (Delegating/Interest) | ℚ value of the query, compared with C52 |
| C54 | proved | bank and delegating genesis (Chain/Genesis) | invariants of all money movements: no empty entries in the stores, no missed part of a day; both imports rebuild a store from its entries |
| C55 | partial | voting genesis (Voting/Genesis) | invariant that keys and stored names agree; the import answers the poll again, replayed answer by answer; violation: import panics after a lost status |
| C56 | proved | profile genesis (Profile/Genesis) | invariant that no stored nickname is reserved; imported records described one by one, with C39 and C40 for distinctness |
| C57 | partial | Referral (Referral/Actives, Props2, Order) | invariant over all operations (`Roster`) on top of the forest of C23; the order by a second invariant (`Ordered`) over all operations but moves of active accounts, for which it is refuted |
| C58 | partial | Referral (Referral/Low, Afford, Accept, Props2) | weakest conditions for every step of the update (`Affords`), discharged from the totals of C24 by a bound on sums over disjoint levels; `C58_orderly_partial` (Referral/Orderly) from C74; two refutations |
| C59 | partial | purchases and the messenger task (Profile/ImTasks, Purchase) | ℚ price list `bill`, exact value of the 64-bit computation, effect on balances, profile and schedule; violation: fee of a failed automatic payment |
| C60 | proved | all operations of the profile module (Profile/Owner) | frame `Only` for every operation; positive specification `Entitled`; `Params.valid` models the validators of the parameter store, `valid_params` shows it is kept |
| C61 | partial | messenger storage and its tasks in the scheduler (Profile/Messenger) | invariant `Kept`: the list of messenger tasks at each time is duplicate free and consists of the accounts whose storage ends then; missing: accounts created with storage, prolongation of storage that ended |
| C62 | proved | calls of `MustSetActive` (Profile/Told) | `Tells`: only `SetProfile` changes an end of subscription; the referral module is a parameter (`Env.setActive`) |
| C63 | proved | `checkStatusRequirements`, `bunchUpdater.update`, `performDowngrade` (Referral/Status) | table `demand` and `Deserves` as specification; loops with early exit shown equal to counting; `checkStatus` follows |
| C64 | partial | all operations of x/referral (Referral/Earned, Earned2, Earned3) | `Fair E`: everybody outside `E` has earned their status or has a date; `Calm` computations keep it; operations that change numbers of active referrals add the referrer to `E` and the next step of the walk removes it |
| C65 | partial | all operations of x/referral and the scheduler (Referral/Deadlines, Deadlines2, Deadlines3, Deadlines4) | `Backed`: every future date has its task; `Books` for computations that only add tasks, `Spares` for deletions; blocks by `performSchedule_pending_of`. Missing: changes of balance that fail halfway without being rolled back and would end an announced banishment; one refutation |
| C66 | proved | `SetActive`, `AppendChild`, `Compress`, `Banish`, `OnBalanceChanged`, `performCompression` (Referral/Dates) | dates written by the account's own update, carried through the walk over ancestors by `climbV_all`; `Rule` lists the cases for a change of delegation; 60 and 30 days are literals of the specification |
| C67 | proved | `GetReferralValidatorFeesForDelegating`, `getReferralValidatorFeesCore` (Referral/Tariff) | table `tariff` and running maximum `highestClaim` as specification; the loop equals a `filterMap` over distances by induction on the rounds left (C25 refers to the rows of the model and does not fix the table) |
| C68 | proved | `Answer`, `StartPoll`, `Poll.Validate` for the quorum (Voting/Respondents) | equivalences with `Entitled` and `Sensible`; exact states after success and failure |
| C69 | proved | `IsQualified`, `SwitchOn`, `IsActiveValidator`, `GetValidatorByConsAddr` (Noding/Qualify) | equivalences with `Qualifies`, `KeyBusy`, explicit record after success; the side condition `Indexed` is an invariant of executions (`indexed_runs`) |
| C70 | proved | `UpdateScore` and all places that change score, strokes or signed blocks (Noding/Score) | invariant `Scored` (score + strokes − signed/100 comes from a stake) by induction over executions; exact effect of the amnesty and of a stake change |
| C71 | proved | `Params.Validate`, `Distribution.Validate`, `MinCriteria.Validate`, `ValidateGenesis` (Noding/Accept) | equivalences with `Reasonable` (shares as rationals) and `Plausible` |
| C72 | partial | `ExportGenesis`, `InitGenesis`, `GenesisValidatorFromD`, `ToInfo`, `Get`/`Set``ActiveValidators`, `Get`/`SetNonActiveValidators`, `GetBlocksProposedByAll` (Noding/Export) | invariants `Tidy` and `proposers_runs` of executions; `Part` describes the half-imported store and is carried through both loops; the selection at the end by C29's lemmas; missing: validators that no longer qualify, shared keys, keys of inactive validators (all refuted by witnesses) |
| C73 | proved | all handlers of `x/profile/keeper/msg_server.go`, `PayTariff`, `Buy…`, `Give…Up`, `ProlongImExtra`, `SetProfile`, `CreateAccountWithProfile` (Profile/Accept) | `Accepted m s` = the request succeeds; each step of a handler is turned into a condition on the state before (`acc_…`, `chargeFee_iff`, `paySplit_iff`, `payTotal_iff`, `save_iff`, `set_iff`, `sched_iff`), using the invariants of C39/C40/C56 to show that a save never fails because of the profile's own nickname or card; `Params.valid` models the validators of the parameter store, `valid_params` shows it is kept |
| C74 | partial | all operations of x/referral (Referral/Retire, Retire2, Retire3, Retire4; examples Retire5) | `Settled` is an invariant of every record; `Lenient` predicates are kept by all updates of relatives, so that only the steps that put somebody below an account, or change its own flags, need an argument; missing: genesis files not in order, overdue tasks |
| C75 | partial | `setStatus` (`reindex`), `AllWithStatus`, `Status.Validate`, index part of `ImportFromGenesis` (Referral/Query, Retire … Retire5) | `Sync index status`: the index is the graph of the statuses from 5 on; carried through the same calculus (`HeldS`), using C74 where the status is set directly; missing: operations that fail halfway |
| C76 | partial | `EndProposal`, `Proposal.Validate`, `MsgPropose.ValidateBasic`, setters and list helpers of all modules (Chain/Enact, EnactProps, EnactSteps, EnactWhen, EnactCases) | the state is observed through `read` (19 values), `rollOf` (7 lists), the records of validators and `rest`; `C76_whole`: equal observations, equal states; then by cases over the types; missing: what the violations show |
| C77 | partial | `ExportToGenesis`, `ImportFromGenesis`, `GetTopLevelAndBanishedAccounts` (Referral/Export, ExportLevels, ExportImport, ExportProps, ExportCases) | the queue of the export is shown to list the levels of the forest (`export_eq`), each account once, ending because a forest with n accounts has at most n levels; the import is followed pair by pair with the invariant `Stage`: the accounts handled so far have the records of a chain without balances; missing: accounts below banished ones, banished accounts' transitions (violations); amounts and subscriptions, which are not in this file: C102 |
| C78 | partial | `MsgDelegate`, `MsgRevoke`, `MsgExpressRevoke` down to the bank (Delegating/Model, Accept) | one direction from the description of successful runs (`delegate_ok`, `revoke_ok`); for the other, every stage is shown to succeed (`accruePart_some`, `convert_succ`, `planAccrue_succ`), with the interest due specified independently (`Due`, by `RateOf` of C52 and the greatest allowed fee of C03); missing: accounts without profile (violation), overflowing amounts, tables with zero denominators |
| C79 | partial | `ForceGlobalDelegation` and `EmptyEarningVpnStorageCollectors` of app/upgrade.go over balances, delegation records, schedule and referral records (Chain/Upgrade, UpgradeProps, UpgradeCases) | one round described by `Round`/`Next`, then induction over the records of the referral store (`Sweep`, `loop_ref`, `loop_split`); coins are counted independently of the kind (`worth`), interest by the time each coin has been delegated; missing: the accrual of accounts recorded under two spellings (violation), collectors that coincide (violation) |
| C80 | partial | `Keeper.Iterate` with a callback that only asks for checks, as used by `ImportProfileRecords` and `RefreshReferralStatuses` (Referral/Refresh, RefreshCases) | statuses and dates of downgrade are the only fields the pass changes, and the demands do not read them (`Alike`), so that every account is checked against the store before the pass; induction over the accounts, with C63 for each; `C80_in_order_partial` (Referral/Numbers) derives `Tame` for executions under the conditions of C58 (`tame_in_order`); missing: statuses after a restart (violation), and what C64 misses |
| C81 | partial | `GetHistory`, `GetPollHistory`, `QueryServer.Current`, `Poll` and the archives (Voting/History) | refinement: minutes kept beside the execution from the accepted messages and the moments agree with the store after every step; keys of ended polls grow strictly because a poll lasts at least a second; violation: two proposals ended in one block share a key |
| C82 | partial | `DeactivateTopLevelAccounts`, `AddMissingProfileRefreshTask` (Chain/Deactivate) over the stores of the profile and referral models | induction over the records and over the months; the schedule only grows (`Grown`); C48's invariant started at the upgraded state; violations: the own count of active accounts, and the renewal that charges without a subscription |
| C83 | partial | `QueryServer.Coins`, `.CheckStatus`, `.ValidateTransition`, `GetCoinsInNetwork`, `GetDelegatedInNetwork`, `LinesOpened` (Referral/Query) | the sums of C24 over `networkOf`, which lists the accounts down to a depth by the tree alone; `Movable` says without recursion over the line what the loop of `validateTransition` finds (`reaches_iff` on forests); partial: coins need `totalsOk` (`C83_orderly_partial` from C74), statuses need `Tame` (derived for executions in `C83_status_in_order_partial`); violations: depth zero, unregistered destinations and subjects |
| C84 | partial | `ResolveTransition`, `AffirmTransition` with the bunch updater | every sum of a subtree is a sum over distinct accounts (C24), so it lies between 0 and the sum of all own delegations; the intermediate states of the move keep these bounds (`Halfway`), so no update fails (`moveBody_succeeds`); `C84_orderly_partial` from C74; violations: banished subjects, subjects at the top |
| C85 | partial | `BeginBlocker` of noding with the index of keys, queries `Proposer`, `Operator`, `SwitchedOn`, `Queue` | the index holds every key the engine has had and leads to its owner (`Wired`, along `chain` together with `Synced` of C28), so every lookup finds the owner; then induction over votes and evidence, each of which changes one record, against the table `Credited`; violations: the height is off by one, keys can be taken over |
| C86 | partial | `ScheduleMissingBanishmentAndRefreshReferralStatuses` with `Keeper.Iterate` (Referral/Announce, AnnounceCases) | the demands of statuses read only level sums, which the pass does not change (`SameTot`), so each account is checked against the store before the pass (C63); induction over the accounts with the running date, tasks are only added (`Grow`); violation: accounts without referrer; `C86_in_order_partial` (Referral/Numbers) derives `Tame` for executions under the conditions of C58 |
| C87 | partial | `UpdateStatusDowngradeTasks`, `FixStatusDowngradeTasks` (Referral/Relocate, RelocateCases) | one lemma on iterators that rewrite a store (`KV.get_rewrite`), from it the content of every key after each upgrade, and the list of tasks every later block runs; violations: dates the scheduler does not know, lost tasks |
| C88 | partial | `RecalculateActiveReferrals` (Referral/Recount) | induction over the store as in C80: lists of accounts not yet visited are those of the start, statuses depend on activity flags and lists below only through `Checked`; violation: lists with repetitions; `C88_in_order_partial` (Referral/Numbers): under the conditions of C58 the upgrade goes through and changes no record |
| C89 | partial | `TransferFromTheBanished` (Referral/Rehome, Rehome2, RehomeCases, Columns, RehomeSums, RehomeSumCases) | invariant: accounts visited are at their new places, all others where they were (`Settling`), from it the first open account above; numbering of accounts for termination; lists by a second invariant under `InOrder`; sums of money as equations between neighbouring levels, kept by adding a column along a line of referrers, under `TopDown`; violations: a record of the start overwrites a changed one, numbers of active accounts stay where they were |
| C90 | partial | `UnbanishAccountsWithDelegation` (Referral/Readmit, Readmit2, ReadmitSums) | invariant `Readmitting` relating every record visited to the one of the start and to the state of its referrer at that moment; lists by `Orderly`; sums as in C89, under `Alone`, which follows from C89 when the transfer comes first; violations: readmission without referrer below an open account, upgrade dropped, money counted twice |
| C91 | partial | `patchEvent` (Util/Event): quoting as in `encoding/json`, the regular expression, both replacements | induction over the text for each replacement, with the fact that escaped text never begins with a quotation mark; violation: codes of special characters are left as they are |
| C92 | partial | the referral operations of C23–C26 with the purses of the bank; no new definitions of code (Referral/Exact, Exact2, ExactProps) | triples `Fix P P' Q m` for actions that succeed, for every callback of every operation: stored accounts, pointers between them, presence and own amounts, with one exempt account between the change of its balance and its own update; then induction over executions; the levels with C24; that changes of balance are accepted with C58 |
| C93 | partial | `ForceOnStatusChangedCallback` of app/upgrade.go over the store of validators (Noding/Force) | induction over the list of running validators taken before the loop; the criteria are those of C33 (`Meets`), stated on records, statuses and stakes; missing: places in the queue when numbers and places do not agree (violation) |
| C94 | partial | the script patch-genesis (Python): dates, tasks, delegating accounts, balances, subscriptions, voting period (Chain/Patch) | arithmetic of heights with integer division; folds over dictionaries described per account; the form of the data that the handlers of version 2 take is a separate table (`expects`); missing: banishment tasks and tasks beyond the year 2262 (violations) |
| C95 | partial | `ScheduleBanishment` of version 2.1.0 (app/upgrade.go:90-257), on the records and the scheduler of the referral model (Referral/Restore) | invariant of the first loop: everything but two dates stays and the same compressions are known, hence whether an account is out of business can be told from the stores before the upgrade; induction over moments and tasks; the second loop through the invariant of C23 (Referral/RestoreProps); that nothing stops a return: the walk upwards adds a delegation to nobody twice, so that sums with room for all returning delegations keep room for the rest (Referral/RestoreBack) |
| C96 | partial | the handlers of app/upgrade.go that add parameters, with the parameter store as a map from keys to values and the validators of the bank (Chain/Settings) | induction over the list of parameters |
| C97 | partial | Noding with all checks of the engine (`Halt.lean`) | the set of C28 is empty exactly when nobody is active; its power is that of C30; induction over executions |
| C98 | proved | Schedule queries (`Query.lean`) | keys compare as times (C15); two lists in the order of execution with the same members are equal |
| C99 | partial | Earning queries (`Query.lean`) | induction over histories with the relation `Shown`; violation: earners without times in the genesis file |
| C100 | proved | Bank, delegating, the proposer's reward (`Chain/Spare.lean`), profile (`Profile/Spare.lean`) | relation `Unharmed` between the banks before and after, composed along every function whatever its result; the specification is the list of who is charged (`Takes`, `MayCharge`); tasks: no task turns automatic payment on |
| C101 | partial | `IsAllowed` of the query server (`Noding/Allowed.lean`) next to the message `MsgOn` of C69 | case analysis; specification `Qualifies` of C69 and the inductive `Misses`; worth of the answer: with C69_switch_on in every reachable state; violation: somebody banned for life is told "allowed" |
| C102 | partial | `restart` of C80 (import of the referral module, then `SetBalance` for every balance, then activation of every subscriber, then the check of statuses) after any run (`Referral/Restart.lean`) | the invariant `Midway` is kept by every step of the import: structure as in the file, totals exact (C24), own amounts = balances so far (C92), lists of active referrals exact (C57); in the end own amounts and subscriptions agree with the old chain, and the totals follow by induction on the level; every step succeeds by the argument of C58 with the delegations so far, which are at most those of the file (`Referral/RestartStarts.lean`); missing: the tenth level after compression in a deep network (as in C24); violation: a banished account above a lowered limit comes back; the lists of active referrals of a new chain are in order whatever the files (`Referral/RestartOrder.lean`), so they equal the old ones if no active account moved; violation of that otherwise |
| C103 | partial | `GetByAddress`, `GetByNickname`, `GetByCardNumber` (`Profile/Query.lean`) over the operations of C39 and the import of C56 | invariant `Index`: every entry of either index leads to a profile; `SetProfile` keeps it however it ends (`setProfile_index`), all other operations change neither nicknames nor card numbers nor the indexes (`run_even`); for nicknames sent without blanks around them the stronger `Exact`: every entry leads to its holder. Missing: nicknames with blanks around them (finding below) |
| C104 | partial | `Voting` with the effects of `Enact` in place of the abstract ones (`Chain/Decided.lean`); the table from numbers of proposals to types and arguments is arbitrary | induction over the execution from its end: the open proposal is followed from the message that made it (`Track`), an enactment changes only what it asks for (`enact_obeys`, from C76), other modules by assumption nothing of it (`Quiet`; that nothing else in /repo writes these parameters after the start is read off the code, upgrades excepted). The upgrade module may clear the planned upgrade. Missing: authors in capitals (finding below) |
| C105 | partial | the index of nicknames as in C103 (`Profile/Query.lean`) | from the invariant `Exact` of C103: every entry leads to its holder, so two entries of one account agree. Missing: nicknames with blanks around them (finding below) |
| C106 | proved | the migration of version 2.5.0: keys are collected, then deleted, over a store with values of any type (`Earning/Clean.lean`) | induction over the list of keys; what follows by the simulation of C45 (`Agrees`) started from the empty list of reports. The skipped steps of 2.5.0 do nothing |
| C107 | partial | the referral part of `PayTariff`: `ComeBack` for banished accounts, then `SetActive` (`Referral/Customer.lean`) | the place of return is specified by an inductive predicate on its own (`Welcomed`); that nothing fails by the success lemmas of C84 and C95 (`Accept.lean`, `RestoreBack.lean`) and the invariant of C58. `C107_any_sums_partial` covers all executions without self-referrals, wrong sums included, as long as the stored sums of delegations are not negative and fit; `C107_customer_partial` derives that under the premises of C58 (`acceptOk`; or, `C107_orderly_partial`, records in order and tasks on time). Always with listeners that succeed, sums of delegations below 2^63 and dates that fit in 64 bits of nanoseconds. What precedes in `PayTariff` (payment, storage) is the subject of C41 and C73; the deletion of the date of banishment is C66 |
| C108 | partial | `SetActive` with `false`, as the end of a subscription calls it (`Referral/Lapse.lean`) | success of the walk over ancestors by `climb_mild` (delegations do not change, so every status can be computed); the record by `activeBody_ok`, the lists by the invariants of C23 and C57. `C108_lapses_partial` covers all executions without self-referrals if the stored sums of delegations are not negative and fit; `C108_in_order_partial` derives that under the premises of C58. Listeners succeed, dates before 2263. The task of the compression is C65 |
| C109 | partial | `AppendChild` and what follows in `CreateAccountWithProfile` (`Referral/Enrol.lean`) | `Receptive` is written out without `RegistrationClosed`; refusals by `appendBody_ok`, for all states; acceptance by the success of the walk (`upTo_climb`: the newcomer's delegation is added to nobody twice), records and lists by the invariants of C23 and C57. Acceptance for executions without self-referrals, if the stored sums of delegations are not negative and leave room, listeners succeed, dates before 2263. False for referrers that are not registered |
| C110 | partial | `Banish` (`Referral/Farewell.lean`) | the sums after the banishment are those of a structure without the account (`Neat.detach` of C58), so they are sums of own delegations and every status can be computed (`affords_of_result`); the lists by the invariant of C23. `C110_dismissed_partial` has the premises of C58 (`acceptOk`), listeners succeed, own delegations are not negative and add up to less than 2⁶³, dates before 2263. That the account has no referrals is a premise (`Dismissible.alone`): the code does not check it, C74 says when it holds, and `C110_announced_partial` derives it for announced banishments if genesis records are in order and tasks run on time. `C110_spared` is for all states |
| C111 | partial | `performCompression`, `Compress` (`Referral/Squash.lean`) | as for C110, with `Neat.compress`: the sums after the compression are those of the new structure, so every status can be computed. `C111_compressed_partial` has the premises of C58 (`acceptOk`), and the account is not in the midst of a line of ten levels or more (`Shallow`; otherwise the sums of level 10 go wrong, section 5, C24); listeners succeed, own delegations are not negative and add up to less than 2⁶³, dates before 2263. `C111_not_before` is for all states |
| C112 | partial | `performDowngrade` with the status check of the bunch updater (`Referral/Relegate.lean`) | `checkStatus_succeeds` of C58 and `checkStatus_spec` of C63 on the record with the lowered status; requirements are the independent `Deserves` and `Best` of C63. For all states, executions are not needed: `Tame` (sums of delegations and teams are not negative and fit, active referrals are stored), status 1 to 9, listeners succeed, dates before 2263. `C112_in_order_partial` derives `Tame` (`Tally.tame`) for all executions under the conditions of C58, from own delegations that are not negative and sum up to less than 2⁶³ and less than 2⁶⁴ accounts |

## 5. Disagreements between code and properties

All confirmed by machine-checked counterexamples in the model (theorem in brackets).

* C03/C05/C06: validation accepts fee rates above one and rate 1/0 [`C03_fee_can_be_negative`, `C05_accepted_rate_can_abort`, `C06_accepted_rate_breaks`];
  a negative `min_send` is accepted and blocks all transfers [`C09_negative_min_send_blocks_all`].
* C06: an explicit supply in the genesis file is not compared with the balances [`C06_genesis_supply_unchecked`].
* C10: `BurnCoins` (module accounts) swallows the error of the inner burn [`C10_module_burn_pretends_success`, `C06_swallowed_hook_error`].
* C18: outside its quantifier – gas fees paid in frozen coins, failing hooks and genesis files break the equation [`C18_gas_fee_breaks`, …].
* C21: a table with zero denominators is accepted [`C21_zero_denominator_accepted`].
* C23: `CreateAccount` accepts the new account as its own referrer [`C23_self_referral_violation`].
* C24: `Compress` does not update level ten of the ancestors [`C24_level_ten_violation`]; `Banish`/`ComeBack` of an account with referrals
  move only its own coins [`C24_banished_parent_violation`].
* C26/C27: addresses are compared as texts, upper-case spellings pass as other accounts [`C26_capital_letters_violation`, `C27_second_request_violation`].
* C28: updates are merged by pointer comparison; a key passed on within a block appears twice [`C28_key_passed_on`, `C28_chosen_but_absent`].
* C29/C33/C34: `OnStakeChanged` deletes the queue entry but returns before saving the record [`C29_too_many_lucky`, `C33_stake_ignored`, `C34_entry_lost`].
* C35/C36/C38: upper-case authors and voters vote twice [`C35_upper_case_author_votes_twice`, …]; the history is overwritten when two proposals end in one block [`C36_history_overwritten`].
* C37: `AddGovernor` does not check for duplicates [`C37_member_admitted_twice`, `C37_duplicate_blocks_forever`].
* C39: nicknames in the account-creation message are indexed trimmed but stored untrimmed [`C39_lookup_fails`, `C39_stale_entry`].
* C42/C48: account creation stores the message's profile as is, including the subscription end [`C42_free_subscription`, `C48_no_renewal`].
* C43: unsigned subtraction in `resetLimits` wraps around [`C43_wraps`].
* C46: earner reports are applied without checking the signer [`C46_anyone_reports`].
* C47: the storage bill is multiplied in 64 bits [`C47_cheap_month`].
* C50: page bounds are multiplied in 32 bits [`C50_wraps`].
* C54: `MissedPart`, written by an upgrade, is not exported [`C54_missed_part_is_lost`].
* C55: the import of an open poll checks the respondents' statuses again and panics [`C55_lost_status`].
* C56: `ImportProfileRecords` asks a missing account for its number before the nil check [`C56_missing_account`].
* C57: transitions append to the list of active referrals that everything else keeps sorted [`C57_order_violation`]; harmless, nothing searches it.
* C58: totals that are wrong because of the C24 defects become negative when somebody below takes a delegation back; the status check of the
  ancestor then panics and the change of balance is refused [`C58_banished_parent_violation`, `C58_level_ten_violation`].
* C59: the automatic payment for messenger storage takes the transaction fee first; if the rest cannot be paid, the fee is kept and the storage ends
  [`C59_fee_for_nothing`].
* C61: account creation also stores messenger storage as is, without a task [`C61_free_storage`]; prolonging storage that ended more than a month
  ago schedules a task in the past, which ends storage bought meanwhile [`C61_bought_and_lost`].
* C64: `AffirmTransition` stops where the two lines of ancestors meet; if an active account moves between two referrals of the same
  account, that account is never checked, although the numbers its status rests on have changed [`C64_siblings_violation`].
* C64: teams are counted ten lines deep, so the status of an account depends on accounts eleven lines below it, but changes are reported
  only to ten ancestors [`C64_teams_violation`].
* C65: `OnBalanceChanged` deletes the task of a banishment before the walk over the ancestors, whose failure (see C58) leaves the date in the
  record without its task unless everything is rolled back [`C65_refused_withdrawal_violation`].  By reading: delegations change only in
  `delegate` and `freeze` (x/delegating), reached from messages, which are rolled back, and from `OnBanished`, which leaves no delegation.
* C72: `InitGenesis` switches every exported active validator on again and panics if one of them no longer qualifies.  Such
  validators exist, because `OnStakeChanged` leaves them on (C33).  It also panics if two active validators share a key (C28).
  `ValidateGenesis` accepts both files.  The index of keys is restored for active validators only, so evidence against a jailed
  one that arrives between the restart and its release has no effect; whether the consensus engine can deliver such evidence is
  outside this model.
* C74: `OnBalanceChanged` sets a date of banishment for every inactive account without date of compression, also when a genesis file
  gave it referrals; it is then banished above them [`C74_genesis_violation`].
* C75: `Banish`, `ComeBack` and the return to activity write the status without touching the index [`C75_genesis_violation`].
* C76: prices of zero, a minimal delegation below one, a negative dust threshold and a maximum of zero validators pass `Proposal.Validate`, but
  `SetParams` panics on them; the same holds for the removal of the last creator or signer.  The vote that completes such a proposal always fails
  [`C76_value_violation`, `C76_last_member_violation`, `C76_last_vote_lost`].  A negative bound of fees and the deprecated types pass the vote and
  have no effect [`C76_max_fee_violation`, `C76_deprecated_violation`].
* C76: an account put twice on the list of earning signers or governors is still on it after its removal [`C76_strike_violation`]; the government can
  be emptied [`C76_empty_government_violation`].
* C77: the export does not pass banished accounts: what is below them is missing in the file [`C77_stranded_violation`]; a banished account's
  wish to move is lost as well [`C77_transition_violation`].
* C78: an account without a profile can delegate once; from then on `accruePart` dereferences the missing profile, so neither further delegations nor
  revocations succeed until it has one, and the daily task fails as well [`C78_stuck`, `C78_no_profile_violation`].
* C79: an account recorded in the referral module under two spellings of its address goes through `ForceGlobalDelegation` twice; the second round
  finds nothing to add and overwrites the part of the day to leave out by 0 [`C79_two_spellings_violation`].  The accounts whose accrual starts
  get times one second apart going backwards from a day after the upgrade, so with more than 86400 of them the part left out exceeds 1
  (`C79_interest_partial` gives the time exactly).  If the company's account were one of the collectors, its coins would be lost
  [`C79_collectors_violation`].
* C80: statuses are not exported unless they are about to be lowered, and the refresh after the import climbs from 1; the demands of a status do
  not imply those of the one below (50000 coins within six lines, 20000 within four), so a deserved status can fall to 1 by a restart
  [`C80_gap_violation`].
* C81: the archive of proposals has one entry per block: of two proposals made and decided in the same block only the second is kept, so
  that the admission of a governor can be missing from the records [`C81_same_block_violation`].  Pages of the archive are reckoned in
  32 bits and start over for large numbers [`C81_pages_wrap`].  (Not modelled: `GetPollHistory` reserves memory for `limit` items before
  it looks how many there are.)
* C82: the upgrade 2.5.8 writes `Active = false` into the records at the top of the structure without taking back their own count in
  `ActiveRefCounts[0]` [`C82_totals_violation`], which becomes 2 with the next subscription [`C82_counted_twice`].  The renewal tasks of
  these accounts stay; with automatic payment the task takes the price of a month, then panics on the missing end of the subscription, and
  nothing is rolled back [`C82_charged_for_nothing`].
* C83: `GetDelegatedInNetwork` does not treat depth zero as "no limit", as `GetCoinsInNetwork` does, so the query with depth zero answers the
  total of the whole network beside the delegated coins of the account alone [`C83_depth_zero_violation`]; the query about an unregistered
  account crashes (index into empty lists) [`C83_unknown`].  A request for a transition is accepted for a destination that is not registered:
  approval then makes a record for it at the top of the structure, and it cannot be registered any more
  [`C83_unknown_destination_violation`]; and for a subject that is not registered, which blocks its registration
  [`C83_unknown_subject_violation`].
* C84: a request of a banished account is accepted, but its approval crashes, as the account is not among the referrals of its referrer
  [`C84_banished_violation`]; a request of an account at the top is accepted, but nobody can resolve it [`C84_top_violation`].
* C85: the proposer of block h is stored under h - 1 (keeper.go:748 with the header of the block that begins), so the query for the
  proposer of h names that of h + 1, and without a height it answers nothing although the client promises the last block
  [`C85_proposer_violation`]; whoever switches on with the key of a jailed account gets its node's blocks, rewards and infractions,
  also after the release [`C85_key_violation`].
* C86: version 2.4.5 also announces the banishment of accounts without referrer (upgrade.go:926, unlike keeper.go:451), which `Banish` refuses
  (keeper.go:923-925); the date stays in the record [`C86_root_violation`].
* C87: version 2.4.3 changes the time in the tasks of downgrades but leaves them under their old keys (upgrade.go:771), so that nothing runs earlier than
  before, although the records say so [`C87_still_late`, `C87_late_violation`]. Version 2.4.4 reads the schedule to which it adds a task from the
  key instead of the store (upgrade.go:883), so that tasks already there are lost [`C87_lost_violation`].
* C88: version 2.0.1 compares lists of active referrals as sets (upgrade.go:63-78): a list that names one referral twice stays, and the referral counts
  twice (`C88_repeated_violation`).
* C89: version 2.3.2 works with the record `r` its iterator shows (upgrade.go:574), which is the one of the start, and writes it back (654).  If somebody
  moved to that account earlier in the loop, the entry in its list and its new sums are lost, and sums above it are corrected by stale amounts; they
  can become negative (`C89_stale_violation`).  Numbers of active accounts below are not moved with the account (`C89_active_violation`).
* C90: in the search for an open account `pi` is declared anew inside the loop (upgrade.go:481), so that the outer one, from which the next referrer is read
  (480), stays empty: below a closed account one is readmitted without referrer (`C90_top_violation`).  If such an account has no money on record, `get("")`
  panics (505); the panic is caught and logged, and nothing of the upgrade is written (`C90_lost_violation`).
  Money of present accounts below a readmitted one is counted twice (`C90_twice_violation`); in version 2.3.2 there are none after the transfer (`C90_version_partial`).
* C91: event attributes leave the JSON codes of special characters as they are: `<` is shown as `\u003c`, and a new line looks like a backslash followed by `n`
  [`C91_special_violation`].  The attributes come in the random order of a Go map; events are not part of the block's hashes in this version of Tendermint, so this does not divide the network.
* C92: an account can be registered under an account that is not registered (`CreateAccountWithProfile`, x/profile/keeper/keeper.go:213-218, and `appendChild` do not check), or move to one (`validateTransition`). A record with status 1 and no coins appears for that account, whatever it owns; from then on its own registration is refused because it exists [`C92_stranger_violation`, `C92_abroad_violation`].
* C93: a queued validator whose stake fell keeps its number in the record while the place is given to somebody else (C34). When version 2.2.0 switches it off, `lotteryExclude` deletes the place under that number, so that the other, who meets the criteria, is not in the queue any more [`C93_place_lost_violation`].
* C94: `_patch_schedule_task` (patch-genesis/x/schedule.py:18-25) turns the data of compressions, downgrades and timeouts of transitions into texts, but not that of banishments, which version 2 reads as text as well [`C94_banish_violation`]; version 2.1.0 repairs it. `height_to_time` writes dates beyond the calendar as the end of the year 9999; a task with such a date makes `Key` of the scheduler panic when version 2 starts [`C94_start_violation`]. The task `referral/status-bonus` has no handler [`C94_bonus`].
* C95: an account with two tasks of banishment keeps both, its record tells the second date and it is banished at the first [`C95_two_dates_violation`]; a date in a record without a task stays and nothing happens at it [`C95_no_task_violation`]; the records of accounts written in capitals (C26) are deleted though others have them as referrers [`C95_capitals_violation`]; a task for somebody who is not in the structure creates a record, after which they cannot register [`C95_stranger_violation`]; an active account that comes back is entered in the list of referrals and the sums of money, but neither in the list of active referrals nor in the numbers of active accounts [`C95_uncounted_violation`].
* C96: `InitTransactionFeeParam`, `InitMaxTransactionFeeParam` and `InitTransactionFeeSplitRatiosAndCompanyAccountParams` (app/upgrade.go:679-695, 804-820, 941-959) read all other parameters in today's list, which `Subspace.Get` answers with a panic for those that later versions add; the present program cannot pass the versions 2.4.2, 2.4.4 and 2.4.6 [`C96_stops_violation`].
* C97: the last active validator may switch off (x/noding/keeper/keeper.go:234-254), be jailed (629-667) or banned (681-710); the list of updates then
  leaves the engine without validators and the chain stops [`C97_last_leaves_violation`, `C97_nobody_violation`].  Parameters with powers of 10^18 are
  accepted, and the engine refuses two such validators [`C97_power_violation`].
* C99: a genesis file may name an earner without times (x/earning/types/genesis.go:23-33), who is then listed although a report without times
  would remove them (x/earning/keeper/msg_server.go:31-45) [`C99_empty_earner_violation`].
* C101: the query whether an account may run a validator (x/noding/keeper/query_server.go:77-97) looks at the three minimums and the staff list only; an
  account banned for life is told that it is allowed, though `SwitchOn` (keeper.go:176-184) refuses it for ever [`C101_banned_allowed`].
* C102: the limit `DustDelegation` can be lowered. A banished account that delegates more than the new limit stays banished on the running chain, but a
  restart from the exported files takes it back into the network, because the import of its balance (x/bank/internal/keeper/genesis.go:18-29) looks
  like an increase of its delegation (x/referral/keeper/keeper.go:448-495) [`C102_dust_violation`].
  Also, the lists of active referrals lose the disorder that a move of an active account brought into them (C57): the two chains agree on the members
  but not on the order, hence not on the bytes stored [`C102_order_violation`].
* C103: the entry of a nickname that was sent with blanks around it is never removed (x/profile/keeper/keeper.go:130-148 trims the new nickname but not
  the old one), so whoever asks for a nickname that was given up is shown the profile of its former holder under another name [`C103_wrong_name`]. The
  same cause as C39.
* C104: a governor who writes their address in capitals in a proposal may vote for it once more (C35); of three governors one alone changed a
  parameter, with the second against it and the third silent [`C104_capitals_violation`].
* C105: updates of a profile refuse a space in a nickname but no tab (x/profile/types/msgs.go:42), while the keeper trims both. An account that puts a
  tab before each new nickname keeps all its former ones from others, for one ARTR each, and even after it has none [`C105_hoard_violation`].
* C51: the timeout of a resolved request is not removed [`C51_early_timeout_violation`, `C51_stale_timeout_violation`].
* C109: `appendChild` (x/referral/keeper/keeper.go:213-281) reads an unknown referrer as an empty record at the top of the structure, so that an account can
  register below an account that does not exist (see C92); the latter then counts as registered and is refused when it wants to register
  [`C109_stranger_violation`].

Observed while reading, outside the listed properties: `GetSignBytes` of the transition messages calls `MustSortJSON` on protobuf bytes (would panic
in amino-JSON signing mode).

## 6. Axioms per theorem

Output of `#print axioms` for the theorems in `MANIFEST.json`, grouped.

* `propext`: `Util.C03_fee_can_be_negative`, `Delegating.C21_zero_denominator_accepted`, `Enact.C76_whole`, `Voting.C81_poll_pages_all`, `Deactivate.C82_reset_twice`, `Referral.C83_unknown`, `Chain.Settings.C96_needs`, `Chain.Settings.C96_stops_violation`.
* `propext, Classical.choice, Quot.sound`: all others (456 theorems).
* `propext, Quot.sound`: `Util.C01_null_round_trip`, `Util.C01_negative_denominator_refused`, `Util.C02_zero_denominator_panics`, `Util.C03_huge_amount_refused`, `Earning.C106_nothing_left`, `Schedule.C15_out_of_range`, `Delegating.C21_every_amount_has_a_row`, `Profile.C43_reset_partial`, `Noding.C69_active`, `Referral.C77_export_ends`, `Patch.C94_bonus`, `Patch.C94_start_partial`, `Patch.C94_money`, `Chain.Settings.C96_adds_partial`, `Chain.Settings.C96_blocked`, `Chain.Settings.C96_poll`, `Earning.C99_one`.
