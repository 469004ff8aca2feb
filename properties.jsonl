{"id": "C01", "title": "Fraction text form round-trips", "statement": "Writing any stored ratio (fee rate, split ratio, percentage, quorum, token rate) to its text form and reading it back yields the very same numerator and denominator; the null value round-trips to the null value, and the text of a ratio with a negative denominator is refused rather than misread.", "quantifier": "for every pair of integers numerator/denominator with denominator >= 0, and for the null value", "why_tests_cant": "Parameters are persisted in text form; the inputs are unbounded integers in three different notations (percent, integer, a/b), so sampled values cannot exclude a notation clash.", "anchors": [{"file": "util/fraction.go", "symbols": ["ParseFraction", "Fraction.String", "Fraction.MarshalTo", "Fraction.Unmarshal"]}]}
{"id": "C02", "title": "Fraction arithmetic is exact", "statement": "Addition, subtraction, multiplication, division, reduction and all six order comparisons of ratios agree with exact rational arithmetic, whatever the signs and the common factors of the operands.", "quantifier": "for all ratios with non-zero denominators (and, for division, non-zero divisor)", "why_tests_cant": "Exactness over all integers including negative denominators and mixed signs is an algebraic law; tests only sample a few operand pairs.", "anchors": [{"file": "util/fraction.go", "symbols": ["Fraction.Add", "Fraction.Sub", "Fraction.Mul", "Fraction.Div", "Fraction.Reduce", "Fraction.IsNegative", "Fraction.LT", "Fraction.GTE", "Fraction.Equal", "lcm"]}]}
{"id": "C03", "title": "Transaction fee is the largest splittable amount within the rate and the cap", "statement": "For a payment of `amount`, the fee charged is exactly the greatest multiple of the split granularity (the common denominator of the split ratios) that exceeds neither rate*amount nor the configured maximum (when a maximum is set); in particular it is never negative, never above the amount for rates in [0,1], and never above the cap.", "quantifier": "for all amounts, rates, caps and split ratios accepted by parameter validation", "why_tests_cant": "Optimality and bounds must hold for every amount/rate/cap combination; tests cannot enumerate rounding corner cases.", "anchors": [{"file": "util/fee.go", "symbols": ["CalculateFee", "calculateSplittableFee", "CalculateTransactionFeeSplitRatiosLCM"]}]}
{"id": "C04", "title": "A fee is split without creating or losing coins", "statement": "Splitting a collected fee among block proposer, company and burning gives three non-negative parts that add up to the fee exactly, and for any fee produced by the fee rule each part is exactly its ratio of the fee (no rounding).", "quantifier": "for all fees and all split ratios accepted by parameter validation", "why_tests_cant": "Conservation under integer rounding is a universally quantified arithmetic law.", "anchors": [{"file": "util/fee.go", "symbols": ["SplitFee", "CalculateFee"]}, {"file": "x/bank/types/params.go", "symbols": ["validateTransactionFeeSplitRatios"]}]}
{"id": "C05", "title": "Accepted fee parameters can never make fee charging abort", "statement": "Every fee-parameter set that validation accepts has positive denominators, split ratios in [0,1] with sum at most 1 and granularity between 1 and 100, so charging and splitting a fee never divides by zero and never produces a negative coin amount.", "quantifier": "for all parameter values reachable through validation", "why_tests_cant": "Needs reasoning over all text inputs the parser accepts (including zero denominators), not over examples.", "anchors": [{"file": "util/fraction.go", "symbols": ["ParseFraction"]}, {"file": "util/fee.go", "symbols": ["CalculateFee", "SplitFee"]}, {"file": "x/bank/types/params.go", "symbols": ["Params.Validate"]}]}
{"id": "C06", "title": "Recorded total supply equals the sum of all balances", "statement": "In every state reachable from genesis through any interleaving of transfers, multi-party transfers, fee payments, burns, delegations, revocations, unfreezes, interest accruals and proposer rewards, the recorded total supply of each coin denomination equals the sum of all account balances of that denomination.", "quantifier": "for all sequences of operations, all accounts, all three denominations", "why_tests_cant": "An invariant over unbounded executions; tests check a handful of traces.", "anchors": [{"file": "x/bank/internal/keeper/keeper.go", "symbols": ["BaseKeeper.MintCoins", "BaseKeeper.BurnAccCoins", "BaseKeeper.SetSupply"]}, {"file": "x/bank/internal/keeper/send.go", "symbols": ["BaseSendKeeper.SubtractCoins", "BaseSendKeeper.AddCoins", "BaseSendKeeper.SendCoins"]}, {"file": "x/delegating/keeper/keeper.go", "symbols": ["Keeper.delegate", "Keeper.freeze", "Keeper.undelegate", "Keeper.accrue"]}]}
{"id": "C07", "title": "No account can overdraw", "statement": "No operation ever leaves an account with a negative balance, and any spend exceeding the balance in some denomination is refused leaving the state unchanged.", "quantifier": "for all reachable states and all operations", "why_tests_cant": "Universally quantified safety property over executions.", "anchors": [{"file": "x/bank/internal/keeper/send.go", "symbols": ["BaseSendKeeper.SubtractCoins"]}]}
{"id": "C08", "title": "A successful transfer moves exactly the amount plus the fee", "statement": "When a user transfer succeeds, the sender pays the amount plus the fee, the recipient gains exactly the amount, the fee collector gains exactly the fee, every other balance and the total supply are unchanged; this also holds when sender and recipient coincide or one of them is the fee collector.", "quantifier": "for all states, senders, recipients and amounts", "why_tests_cant": "Aliasing between parties and arbitrary other accounts needs a frame condition, which tests cannot quantify over.", "anchors": [{"file": "x/bank/internal/keeper/msg_server.go", "symbols": ["BaseKeeper.Send"]}, {"file": "x/bank/internal/keeper/send.go", "symbols": ["BaseSendKeeper.SendCoins"]}, {"file": "x/bank/internal/keeper/keeper.go", "symbols": ["BaseKeeper.PayTxFee"]}]}
{"id": "C09", "title": "A transfer is accepted exactly when the published conditions hold", "statement": "A user transfer succeeds if and only if the recipient account exists and may receive funds, the coins are of the sendable denomination only, the amount reaches the configured minimum, the sender is not on the blocked list and the sender can afford amount plus fee.", "quantifier": "for all states and messages", "why_tests_cant": "An iff over the whole input space including coin sets of several denominations.", "anchors": [{"file": "x/bank/internal/keeper/msg_server.go", "symbols": ["BaseKeeper.Send"]}]}
{"id": "C10", "title": "Burning destroys exactly the requested coins", "statement": "A successful burn lowers the burner's balance and the total supply by exactly the amount and changes nothing else; a burn that cannot be afforded fails and changes nothing. (A module-account burn must likewise report failure instead of pretending success.)", "quantifier": "for all states and amounts", "why_tests_cant": "Frame condition and failure behaviour over all states.", "anchors": [{"file": "x/bank/internal/keeper/keeper.go", "symbols": ["BaseKeeper.BurnCoins", "BaseKeeper.BurnAccCoins"]}, {"file": "x/bank/internal/keeper/msg_server.go", "symbols": ["BaseKeeper.Burn"]}]}
{"id": "C11", "title": "Multi-party payments conserve coins", "statement": "A many-input many-output payment succeeds only if the inputs and outputs balance, and then every party's balance changes by exactly its outputs minus its inputs, whatever accounts occur repeatedly.", "quantifier": "for all states and all lists of inputs and outputs", "why_tests_cant": "Lists of unbounded length with aliasing.", "anchors": [{"file": "x/bank/internal/keeper/send.go", "symbols": ["BaseSendKeeper.InputOutputCoins"]}]}
{"id": "C12", "title": "Block reward distribution empties the fee pools and conserves coins", "statement": "At the start of a block the proposer reward step leaves both fee pools empty; the plain pool goes to the proposer, the splittable pool is divided between proposer, company and burning, and total supply falls by exactly the burned part.", "quantifier": "for all states, all pool contents and all valid split ratios", "why_tests_cant": "Conservation over all pool sizes including sizes not divisible by the granularity.", "anchors": [{"file": "x/noding/keeper/keeper.go", "symbols": ["Keeper.PayProposerReward"]}, {"file": "util/fee.go", "symbols": ["SplitFee"]}]}
{"id": "C13", "title": "Scheduled tasks run exactly once, never early, in the first block that reaches their time", "statement": "A task scheduled for time T (in the future) runs exactly once, in the first block whose time is at least T, unless it is deleted before; it never runs in an earlier block.", "quantifier": "for all sequences of scheduling, deletion and blocks with non-decreasing times, with task handlers that may themselves schedule further tasks for later times", "why_tests_cant": "A liveness/safety pair over unbounded executions.", "anchors": [{"file": "x/schedule/keeper/keeper.go", "symbols": ["Keeper.ScheduleTask", "Keeper.PerformSchedule", "Keeper.Delete", "Keeper.DeleteAll"]}]}
{"id": "C14", "title": "Due tasks run in order of time and, for equal times, in order of scheduling", "statement": "Within one block due tasks are executed in non-decreasing order of their due times, and tasks with the same due time in the order in which they were scheduled.", "quantifier": "for all stores and all scheduling sequences", "why_tests_cant": "Ordering over unbounded sets of tasks.", "anchors": [{"file": "x/schedule/keeper/keeper.go", "symbols": ["Keeper.PerformSchedule", "Keeper.scheduleTask", "Key"]}]}
{"id": "C15", "title": "Time keys preserve order and identity", "statement": "The stored byte key of a moment determines the moment (to the nanosecond) and keys compare bytewise exactly as moments compare in time.", "quantifier": "for all moments in the supported years", "why_tests_cant": "Order preservation over all pairs of instants.", "anchors": [{"file": "x/schedule/keeper/keeper.go", "symbols": ["Key"]}]}
{"id": "C16", "title": "A failing task does not affect other tasks", "statement": "If a task handler panics or is unknown, all other due tasks of that block still run and all due tasks are still removed from the schedule.", "quantifier": "for all stores and all sets of failing tasks", "why_tests_cant": "Any subset of the due tasks may fail.", "anchors": [{"file": "x/schedule/keeper/keeper.go", "symbols": ["Keeper.PerformSchedule"]}]}
{"id": "C17", "title": "The schedule survives export and import", "statement": "Exporting the schedule and importing it into an empty chain reproduces the same tasks at the same times in the same order.", "quantifier": "for all schedules", "why_tests_cant": "Round trip over unbounded state.", "anchors": [{"file": "x/schedule/keeper/genesis.go", "symbols": ["Keeper.InitGenesis", "Keeper.ExportGenesis"]}]}
{"id": "C18", "title": "Coins being unfrozen always match the open revoke requests", "statement": "For every account, the balance of coins being revoked equals the sum of the amounts of its open revoke requests, in every reachable state.", "quantifier": "for all accounts and all sequences of delegate, revoke, express revoke, due revocations, accruals and transfers", "why_tests_cant": "Invariant relating two stores over unbounded executions.", "anchors": [{"file": "x/delegating/keeper/keeper.go", "symbols": ["Keeper.Revoke", "Keeper.freeze", "Keeper.undelegate"]}, {"file": "x/delegating/keeper/hooks.go", "symbols": ["Keeper.performRevoking"]}]}
{"id": "C19", "title": "Delegation moves coins one to one apart from the fee", "statement": "A successful delegation takes the stated amount from the spendable balance, puts the amount minus the transaction fee into the delegated balance and the fee into the fee pool; nothing else changes.", "quantifier": "for all states and amounts", "why_tests_cant": "Exact effects on all accounts and denominations.", "anchors": [{"file": "x/delegating/keeper/keeper.go", "symbols": ["Keeper.Delegate", "Keeper.delegate"]}]}
{"id": "C20", "title": "Revoked coins come back in full after the waiting period and only once", "statement": "A revocation immediately burns exactly the configured share of the revoked amount, freezes the rest, and the frozen rest becomes spendable exactly once, at the first block not earlier than the end of the waiting period (normal or express).", "quantifier": "for all states, amounts, revoke parameters and block schedules", "why_tests_cant": "Spans several blocks and arbitrary other requests of the same account.", "anchors": [{"file": "x/delegating/keeper/keeper.go", "symbols": ["Keeper.Revoke"]}, {"file": "x/delegating/keeper/hooks.go", "symbols": ["Keeper.performRevoking"]}]}
{"id": "C21", "title": "Interest rate lookup follows the published table", "statement": "The daily accrual rate of an account is one thirtieth of the sum of the table percentages that apply (base, validator, subscription, VPN, storage), taken from the table row with the greatest starting amount not above the delegated amount; dust delegations earn nothing; every accepted table has a row for every non-negative amount.", "quantifier": "for all accepted tables, delegated amounts and flag combinations", "why_tests_cant": "Tables are governance-controlled and of unbounded length.", "anchors": [{"file": "x/delegating/keeper/keeper.go", "symbols": ["Keeper.percent"]}, {"file": "x/delegating/types/types.go", "symbols": ["ValidatePercentageTable"]}]}
{"id": "C22", "title": "Interest accrual credits exactly what it mints", "statement": "An accrual increases total supply by exactly the accrued sum, of which the account receives the sum minus the fee, the fee pool the fee, and beneficiaries their shares; nothing is lost or double counted.", "quantifier": "for all states and accrual amounts", "why_tests_cant": "Conservation over all states.", "anchors": [{"file": "x/delegating/keeper/keeper.go", "symbols": ["Keeper.accrue", "Keeper.accrueToValidator"]}]}
{"id": "C23", "title": "Referral structure stays a consistent forest", "statement": "In every reachable state each referred account is listed exactly once among the referrals of its referrer and nowhere else, and following referrers upwards never cycles.", "quantifier": "for all sequences of registration, transition, compression, banishment and comeback", "why_tests_cant": "Structural invariant over unbounded trees and executions.", "anchors": [{"file": "x/referral/keeper/keeper.go", "symbols": ["Keeper.appendChild", "Keeper.Compress", "Keeper.AffirmTransition", "Keeper.Banish", "Keeper.ComeBack", "Keeper.AddTopLevelAccount"]}]}
{"id": "C24", "title": "Stored network totals match the tree", "statement": "For each account and each level up to ten, the stored coin, delegation and active-member totals equal the sums over the account's descendants at that depth.", "quantifier": "for all reachable trees and accounts", "why_tests_cant": "Aggregates over unbounded trees after arbitrary restructurings.", "anchors": [{"file": "x/referral/keeper/keeper.go", "symbols": ["Keeper.OnBalanceChanged", "Keeper.Compress", "Keeper.AffirmTransition", "Keeper.appendChild", "Keeper.SetActive"]}]}
{"id": "C25", "title": "Validator commission paid to the network never exceeds six permille", "statement": "For any validator, the commission ratios paid to ancestors are positive, go to distinct ancestors within twenty levels in increasing distance, and add up to at most 6 permille.", "quantifier": "for all referral trees and statuses", "why_tests_cant": "All possible ancestor chains and statuses.", "anchors": [{"file": "x/referral/keeper/keeper.go", "symbols": ["Keeper.GetReferralValidatorFeesForDelegating", "Keeper.getReferralValidatorFeesCore"]}]}
{"id": "C26", "title": "A transition never makes an account its own ancestor", "statement": "A transition request is refused whenever the destination is the subject itself or lies below the subject; affirmed transitions move the subject with its whole subtree under the destination.", "quantifier": "for all trees and requests, including restructurings between request and affirmation", "why_tests_cant": "Requires reasoning over arbitrary trees and interleavings.", "anchors": [{"file": "x/referral/keeper/keeper.go", "symbols": ["Keeper.RequestTransition", "Keeper.AffirmTransition", "Keeper.validateTransition"]}]}
{"id": "C27", "title": "Only one transition can be pending and only the current referrer can resolve it", "statement": "An account has at most one pending transition, a second request is refused, resolution by anyone but the current referrer is refused, and declining or timing out leaves the structure untouched.", "quantifier": "for all states and messages", "why_tests_cant": "Decision logic over all states.", "anchors": [{"file": "x/referral/keeper/msg_server.go", "symbols": ["MsgServer.RequestTransition", "MsgServer.ResolveTransition"]}, {"file": "x/referral/keeper/keeper.go", "symbols": ["Keeper.CancelTransition"]}]}
{"id": "C28", "title": "The validator set sent to consensus is always exactly the chosen set", "statement": "After each block the accumulated validator updates sent to the consensus engine describe exactly the validators chosen in that block with their voting powers; validators that are no longer chosen are removed.", "quantifier": "for all sequences of switch on/off, jailing, banning and blocks", "why_tests_cant": "A refinement over unbounded executions.", "anchors": [{"file": "x/noding/keeper/keeper.go", "symbols": ["Keeper.GatherValidatorUpdates"]}, {"file": "x/noding/abci.go", "symbols": ["EndBlocker"]}]}
{"id": "C29", "title": "Chosen validators are active, best-scored and limited in number", "statement": "Each block at most max_validators top validators plus at most lottery_validators lucky ones are chosen, all of them switched on, not jailed, not banned; every unchosen active validator has a score no higher than any top validator.", "quantifier": "for all sets of validators and parameters", "why_tests_cant": "Selection from unbounded sets.", "anchors": [{"file": "x/noding/keeper/keeper.go", "symbols": ["Keeper.GatherValidatorUpdates", "Keeper.GetActiveValidatorList"]}]}
{"id": "C30", "title": "Voting power assignment is total and positive", "statement": "For every accepted voting-power distribution and every sequence of scores, power assignment never aborts, always yields a positive power, top positions get powers of consecutive slices and extra (lucky) positions the lucky power.", "quantifier": "for all accepted distributions and all score sequences", "why_tests_cant": "Absence of an out-of-range slice access for every distribution.", "anchors": [{"file": "x/noding/keeper/vp_generator.go", "symbols": ["VpGenerator.GetVotingPower"]}, {"file": "x/noding/types/types.go", "symbols": ["Distribution.Validate"]}]}
{"id": "C31", "title": "A banned validator never validates again", "statement": "Once banned for life, a validator is never active again, whatever messages, amnesties, staff changes or blocks follow.", "quantifier": "for all subsequent executions", "why_tests_cant": "Temporal property over unbounded executions.", "anchors": [{"file": "x/noding/keeper/keeper.go", "symbols": ["Keeper.MarkByzantine", "Keeper.SwitchOn", "Keeper.Unjail", "Keeper.GeneralAmnesty", "Keeper.AddToStaff"]}]}
{"id": "C32", "title": "A jailed validator stays inactive until its term ends and it asks to be released", "statement": "A jailed validator is not active until it is unjailed; a request before the end of the term is refused; jailing happens exactly when the number of consecutively missed blocks reaches the limit.", "quantifier": "for all executions", "why_tests_cant": "Temporal property over unbounded executions.", "anchors": [{"file": "x/noding/keeper/keeper.go", "symbols": ["Keeper.MarkStroke", "Keeper.MarkTick", "Keeper.Unjail"]}]}
{"id": "C33", "title": "An under-qualified validator is switched off", "statement": "When an account's status or stake falls below the validator criteria and it is not staff, its validation is switched off by the end of that change.", "quantifier": "for all states and stake/status changes", "why_tests_cant": "All combinations of flags and stake changes.", "anchors": [{"file": "x/noding/keeper/keeper.go", "symbols": ["Keeper.OnStatusUpdate", "Keeper.OnStakeChanged"]}]}
{"id": "C34", "title": "Lottery queue positions and validators correspond one to one", "statement": "Every queue position belongs to exactly one validator whose record carries that position and vice versa, newly queued validators go to the end, and the relative order of the others is kept.", "quantifier": "for all executions", "why_tests_cant": "Invariant between an index and records over unbounded executions.", "anchors": [{"file": "x/noding/keeper/lottery.go", "symbols": ["Keeper.lotteryAddNew", "Keeper.lotteryExclude", "Keeper.lotteryDownshift"]}, {"file": "x/noding/keeper/keeper.go", "symbols": ["Keeper.OnStakeChanged"]}]}
{"id": "C35", "title": "Each governor votes at most once and only governors vote", "statement": "While a proposal is open the yes- and no-lists contain only governors, no governor twice and none in both; the author counts as a yes vote; at most one proposal is open.", "quantifier": "for all executions", "why_tests_cant": "Invariant over unbounded executions.", "anchors": [{"file": "x/voting/keeper/keeper.go", "symbols": ["Keeper.Propose", "Keeper.Vote"]}]}
{"id": "C36", "title": "A proposal is enacted exactly when everyone voted and two thirds agreed", "statement": "A proposal takes effect if and only if all governors have voted and at least two thirds of the government agreed; otherwise it ends without effect, at the latest at the end of its voting period, and is recorded in the history.", "quantifier": "for all governments, vote sequences and block times", "why_tests_cant": "Requires all interleavings of votes and time.", "anchors": [{"file": "x/voting/keeper/keeper.go", "symbols": ["Keeper.Validate", "Keeper.EndProposal", "Keeper.ProcessSchedule"]}]}
{"id": "C37", "title": "The government list never contains duplicates", "statement": "Adding an account that already is a governor does not enter it twice, so that unanimous participation stays reachable.", "quantifier": "for all sequences of enacted membership proposals", "why_tests_cant": "Invariant over executions.", "anchors": [{"file": "x/voting/keeper/government.go", "symbols": ["Keeper.AddGovernor", "Keeper.RemoveGovernor"]}, {"file": "x/voting/types/types.go", "symbols": ["Government.Append", "Government.Remove"]}]}
{"id": "C38", "title": "Poll tallies equal the recorded answers", "statement": "While a poll is open its yes and no counters equal the numbers of accounts that answered so; nobody can answer twice; when it ends the decision is positive iff there is at least one yes and the yes share reaches the quorum, and all answers are cleared.", "quantifier": "for all executions and quorums", "why_tests_cant": "Invariant between counters and records.", "anchors": [{"file": "x/voting/keeper/keeper.go", "symbols": ["Keeper.StartPoll", "Keeper.Answer", "Keeper.EndPoll"]}]}
{"id": "C39", "title": "Nicknames are unique regardless of case", "statement": "No two accounts ever hold nicknames that differ only in letter case or surrounding blanks, and looking a held nickname up finds its holder.", "quantifier": "for all sequences of account creations and profile updates", "why_tests_cant": "Invariant between an index and profiles.", "anchors": [{"file": "x/profile/keeper/keeper.go", "symbols": ["Keeper.SetProfile", "Keeper.ValidateProfileNickname", "Keeper.GetProfileAccountByNickname"]}]}
{"id": "C40", "title": "Card numbers are unique and resolve to their holder", "statement": "Different accounts have different card numbers, and looking up an account's non-zero card number finds that account.", "quantifier": "for all sequences of account creations", "why_tests_cant": "Injectivity over all account numbers.", "anchors": [{"file": "x/profile/keeper/keeper.go", "symbols": ["Keeper.CardNumberByAccountNumber", "Keeper.SetProfile", "Keeper.GetProfileAccountByCardNumber"]}, {"file": "x/profile/keeper/params.go", "symbols": ["Keeper.SetParams"]}]}
{"id": "C41", "title": "A paid month extends the subscription by exactly one month", "statement": "A successful payment sets the end of the subscription to one month after its previous end if it was still active (or on automatic renewal) and to one month from now otherwise; the payer is charged exactly the quoted total, which is fully passed on to the company account and the fee pool.", "quantifier": "for all states, times and storage amounts", "why_tests_cant": "Arithmetic and conservation over all inputs.", "anchors": [{"file": "x/profile/keeper/subscription.go", "symbols": ["Keeper.PayTariff"]}]}
{"id": "C42", "title": "Nobody gets a subscription without paying for it", "statement": "A freshly created account is not subscribed until a tariff payment is made.", "quantifier": "for all account-creation messages", "why_tests_cant": "All message contents.", "anchors": [{"file": "x/profile/keeper/msg_server.go", "symbols": ["MsgServer.CreateAccount"]}, {"file": "x/profile/keeper/keeper.go", "symbols": ["Keeper.CreateAccountWithProfile"]}]}
{"id": "C43", "title": "Monthly reset never increases the VPN allowance", "statement": "Resetting the monthly counters sets used VPN traffic to zero and leaves the VPN limit between the base allowance and the larger of the base and the previous limit.", "quantifier": "for all limits, usages and base allowances", "why_tests_cant": "Unsigned wrap-around corner cases.", "anchors": [{"file": "x/profile/keeper/subscription.go", "symbols": ["Keeper.resetLimits"]}]}
{"id": "C44", "title": "Storage limits never fall below the base nor below current use when reduced by the owner", "statement": "Giving storage up succeeds only if the new limit is below the old one, not below the current consumption and not below the base allowance.", "quantifier": "for all states and amounts", "why_tests_cant": "All 64-bit values.", "anchors": [{"file": "x/profile/keeper/subscription.go", "symbols": ["Keeper.GiveStorageUp", "Keeper.BuyStorage"]}]}
{"id": "C45", "title": "Earner status expires after two days without renewal", "statement": "An account counts as VPN (storage) earner at a moment iff its last reported VPN (storage) activity is less than two days old; checking it does not change any later answer, and an account with neither is forgotten.", "quantifier": "for all states and times", "why_tests_cant": "All time pairs; purity of a query with side effects.", "anchors": [{"file": "x/earning/keeper/keeper.go", "symbols": ["Keeper.IsActiveEarner"]}]}
{"id": "C46", "title": "Only authorised signers can report earners", "statement": "An earner report is applied only if its sender is on the list of authorised earning signers.", "quantifier": "for all messages and signer lists", "why_tests_cant": "All senders.", "anchors": [{"file": "x/earning/keeper/msg_server.go", "symbols": ["MsgServer.Set", "MsgServer.SetMultiple"]}, {"file": "x/earning/keeper/params.go", "symbols": ["Keeper.AddSigner", "Keeper.RemoveSigner"]}]}
{"id": "C47", "title": "A month never costs less than the subscription price", "statement": "Every successful tariff payment takes at least the price of the subscription (token rate times subscription price) from the payer, whatever storage amount is requested.", "quantifier": "for all states, times and storage amounts", "why_tests_cant": "The storage surcharge is a 64-bit product that only wraps around for a few huge requests.", "anchors": [{"file": "x/profile/keeper/subscription.go", "symbols": ["Keeper.PayTariff"]}, {"file": "x/profile/types/msgs.go", "symbols": ["MsgPayTariff.ValidateBasic"]}]}
{"id": "C48", "title": "The end of every running subscription is scheduled", "statement": "While an account's subscription runs, a renewal task for that account is pending at exactly the time its subscription ends.", "quantifier": "for all sequences of messages and blocks", "why_tests_cant": "Invariant between two modules' stores over all histories.", "anchors": [{"file": "x/profile/keeper/subscription.go", "symbols": ["Keeper.PayTariff", "Keeper.scheduleRenew", "Keeper.monthlyRoutine"]}, {"file": "x/profile/keeper/msg_server.go", "symbols": ["MsgServer.CreateAccount"]}]}
{"id": "C49", "title": "Earner state survives export and import", "statement": "Exporting the earning module's genesis from a running chain and importing it into an empty one gives exactly the same timestamps for every account and the same list of signers.", "quantifier": "for all reachable states", "why_tests_cant": "All stores and signer lists.", "anchors": [{"file": "x/earning/keeper/genesis.go", "symbols": ["Keeper.GetEarners", "Keeper.SetEarners"]}, {"file": "x/earning/genesis.go", "symbols": ["InitGenesis", "ExportGenesis"]}]}
{"id": "C50", "title": "Paging through the earners shows everyone once", "statement": "Reading consecutive pages of the earner list yields every earner exactly once, in the order of their addresses.", "quantifier": "for all states, page sizes and page numbers", "why_tests_cant": "All page sizes and numbers, including ones that overflow.", "anchors": [{"file": "x/earning/keeper/query_server.go", "symbols": ["QueryServer.List"]}]}
{"id": "C51", "title": "A transition request stays open for a full day", "statement": "An accepted request for a transition stays pending until the current referrer resolves it or a full day has passed since that very request.", "quantifier": "for all sequences of requests, resolutions, timeouts and structure changes", "why_tests_cant": "Interleavings of several requests of one account with timeouts of earlier ones.", "anchors": [{"file": "x/referral/keeper/keeper.go", "symbols": ["Keeper.RequestTransition", "Keeper.CancelTransition", "Keeper.AffirmTransition"]}, {"file": "x/referral/keeper/hooks.go", "symbols": ["Keeper.PerformTransitionTimeout"]}]}
{"id": "C52", "title": "Interest is rate times the part of the day times the delegation", "statement": "Whenever interest is paid on a chain started from genesis, its amount is exactly the floor of daily rate times delegated coins for the daily task, and the floor of daily rate times the part of the day that has passed times the coins delegated before the change when it is paid ahead of a delegation or a revocation (as long as rate times delegation stays below 2^63); validator bonuses are computed from the delegation in the same proportion, and nothing but the interest changes main balances besides the message's own amounts.", "quantifier": "all reachable states, all accounts, block times within the accrual day, amounts and rates with rate*delegation < 2^63", "why_tests_cant": "rounding of reduced 64-bit fractions has to be right for every time of the day, every amount and every row of every accepted table, after every history of delegations and revocations", "anchors": [{"file": "x/delegating/keeper/keeper.go", "symbols": ["Keeper.accruePart", "Keeper.Revoke", "Keeper.Delegate", "Keeper.percent"]}, {"file": "x/delegating/keeper/hooks.go", "symbols": ["Keeper.MustPerformAccrue"]}]}
{"id": "C53", "title": "The accumulation query tells the truth", "statement": "On a chain started from genesis, the sum the accumulation query shows as accumulated up to now is exactly the interest the account is paid if it revokes at that moment, and the total it shows is exactly what the daily task pays when nothing changes until then.", "quantifier": "all reachable states, all accounts with a running accrual, all block times within the accrual day, rate*delegation < 2^63", "why_tests_cant": "query and payment round different products of fractions; agreement for all amounts, rates and times needs a proof about exact rational values", "anchors": [{"file": "x/delegating/keeper/keeper.go", "symbols": ["Keeper.GetAccumulation", "Keeper.accruePart"]}, {"file": "x/delegating/keeper/hooks.go", "symbols": ["Keeper.MustPerformAccrue"]}]}
{"id": "C54", "title": "Money survives export and import", "statement": "Exporting the bank and delegating modules of a chain started from genesis and importing the files gives exactly the same balances, supply, parameters and delegation records.", "quantifier": "all genesis files that import, all histories of the money-moving code (transactions and block phases), any target chain", "why_tests_cant": "the round trip must be exact for every reachable balance table and accrual record, including drained accounts, zero amounts and paid-out days", "anchors": [{"file": "x/bank/internal/keeper/genesis.go", "symbols": ["BaseKeeper.InitGenesis", "BaseKeeper.ExportGenesis"]}, {"file": "x/delegating/genesis.go", "symbols": ["InitGenesis", "ExportGenesis"]}, {"file": "x/delegating/keeper/genesis.go", "symbols": ["Keeper.InitAccounts", "Keeper.ExportAccounts"]}]}
{"id": "C55", "title": "Votes survive export and import", "statement": "Exporting the voting module of any chain and importing the file into an empty chain gives the same government, open proposal with the votes cast, archive, open poll with answers and counts, and poll archive.", "quantifier": "all executions of the voting module from a fresh start, any moment of export and import", "why_tests_cant": "the file stores counts and answers in other shapes than the store; equality has to hold for every combination of open and archived votes and every set of voters", "anchors": [{"file": "x/voting/genesis.go", "symbols": ["InitGenesis", "ExportGenesis"]}, {"file": "x/voting/keeper/keeper.go", "symbols": ["Keeper.LoadPolls"]}]}
{"id": "C56", "title": "Profiles survive export and import", "statement": "Exporting the profiles of any chain and importing them on a chain with the same accounts and card magic gives the same profiles, card numbers included; afterwards the nickname index holds exactly the nicknames of the profiles and the card index exactly their card numbers.", "quantifier": "all executions of the profile module, any time of import", "why_tests_cant": "card numbers are dropped from the file and recomputed, indices are rebuilt while nicknames are validated again; every reachable set of profiles has to pass", "anchors": [{"file": "x/profile/keeper/genesis.go", "symbols": ["Keeper.ExportProfileRecords", "Keeper.ImportProfileRecords"]}, {"file": "x/profile/keeper/keeper.go", "symbols": ["Keeper.SetProfile", "Keeper.ValidateProfileNickname", "Keeper.CardNumberByAccountNumber"]}]}
{"id": "C57", "title": "Lists of active referrals are exact", "statement": "The list of active referrals of every account holds exactly the active accounts among its referrals, each once and in increasing order, at every moment of a chain's history.", "quantifier": "all executions of the referral module: genesis, registrations, subscriptions, expiries, compressions, transitions, banishments, returns, balance changes", "why_tests_cant": "the list is maintained incrementally by six operations, each touching other accounts than its subject; a missed or doubled entry shows only after particular interleavings", "anchors": [{"file": "x/referral/keeper/keeper.go", "symbols": ["Keeper.SetActive", "Keeper.Compress", "Keeper.AffirmTransition", "Keeper.appendChild"]}, {"file": "util/lists.go", "symbols": ["AddStringSorted", "RemoveStringPreserveOrder", "MergeStringsSorted", "RemoveStringFast"]}]}
{"id": "C58", "title": "Balance changes are never refused", "statement": "When the callbacks of other modules succeed and the delegations of all accounts add up to a 63-bit number, the referral module accepts every change of the balance of every account: no state of the referral structure can lock anybody's money.", "quantifier": "all executions of the referral module, all accounts, all new balances with a delegation that is not negative, all times up to 2262", "why_tests_cant": "the refusal comes from the status check of some ancestor up to ten levels above, and depends on the whole history of totals there", "anchors": [{"file": "x/referral/keeper/keeper.go", "symbols": ["Keeper.OnBalanceChanged", "Keeper.Compress", "Keeper.Banish", "Keeper.ComeBack"]}, {"file": "x/referral/keeper/bunch_updater.go", "symbols": ["bunchUpdater.update"]}, {"file": "x/referral/keeper/status_requirements.go", "symbols": ["statusRequirementsXByX", "statusRequirementsCore"]}]}
{"id": "C59", "title": "Extra storage and traffic cost the listed price", "statement": "Buying storage, messenger storage or traffic charges exactly the listed price of the amount for the remaining part of the month, passes it on to the company account and the fee pool, and raises the buyer's limit by exactly the amount; giving messenger storage up costs nothing and ends it at zero; at the end of its month messenger storage is either paid for in full and prolonged or ended without payment.", "quantifier": "all states, accounts, amounts and parameters whose bill fits 63 bits", "why_tests_cant": "prices are computed with reduced fractions and 64-bit products of parameters, amounts and times; tests fix the parameters and the moment", "anchors": [{"file": "x/profile/keeper/subscription.go", "symbols": ["Keeper.BuyStorage", "Keeper.BuyImStorage", "Keeper.BuyVpn", "Keeper.GiveImStorageUp", "Keeper.ProlongImExtra", "Keeper.prolongImExtra", "Keeper.monthlyImRoutine", "Keeper.monthPart"]}]}
{"id": "C60", "title": "Profiles change only by their owners and listed signers", "statement": "The profile of an account changes only by a message signed by that account, a report of a signer listed in the parameters, the creation of the account, or a due task about it; an update sets exactly the fields sent, and nicknames must be proper; the token rate changes only by a listed signer, to a positive value, or with the parameters as a whole.", "quantifier": "all states, all messages and blocks, all behaviours of the other modules", "why_tests_cant": "a negative claim about all operations on all other accounts", "anchors": [{"file": "x/profile/keeper/msg_server.go", "symbols": ["MsgServer.CreateAccount", "MsgServer.UpdateProfile", "MsgServer.SetStorageCurrent", "MsgServer.SetVpnCurrent", "MsgServer.SetRate"]}, {"file": "x/profile/keeper/keeper.go", "symbols": ["Keeper.SetProfile", "Keeper.SetStorageCurrent", "Keeper.SetVpnCurrent"]}, {"file": "x/profile/types/msgs.go", "symbols": ["MsgUpdateProfile.ValidateBasic"]}]}
{"id": "C61", "title": "Messenger storage that runs has exactly one renewal task", "statement": "Whenever an account has extra messenger storage whose paid time has not passed, exactly one renewal task for it is scheduled, at the end of the paid time; an account has no other messenger tasks.", "quantifier": "all executions of messages and blocks over all parameters and behaviours of other modules", "why_tests_cant": "tasks are put, deleted and put again by four messages and one task over an unbounded history", "anchors": [{"file": "x/profile/keeper/subscription.go", "symbols": ["Keeper.BuyImStorage", "Keeper.GiveImStorageUp", "Keeper.ProlongImExtra", "Keeper.prolongImExtra", "Keeper.monthlyImRoutine", "Keeper.scheduleRenewIm"]}, {"file": "x/profile/keeper/msg_server.go", "symbols": ["MsgServer.CreateAccount"]}]}
{"id": "C62", "title": "The referral module is told about starts and ends of subscriptions", "statement": "If a message starts or ends somebody's subscription, the referral module was told the new state of exactly this account and agreed; when the task at the end of a subscription does not renew it, the referral module is told that the account is inactive; saving a profile that neither starts nor ends a subscription does not involve the referral module.", "quantifier": "all states, messages, accounts and behaviours of the referral module", "why_tests_cant": "a claim about every message, including those whose purpose has nothing to do with subscriptions", "anchors": [{"file": "x/profile/keeper/keeper.go", "symbols": ["Keeper.SetProfile"]}, {"file": "x/profile/keeper/subscription.go", "symbols": ["Keeper.PayTariff", "Keeper.monthlyRoutine"]}]}
{"id": "C63", "title": "Statuses follow the published requirements", "statement": "The status check answers yes exactly for accounts that meet the table of requirements (coins delegated in the structure, active referrals with enough active referrals, teams); a checked account that meets the requirements of its status gets the highest status reachable step by step and no date of downgrade; one that does not keeps its status and has a date of downgrade with a scheduled task, two days ahead if it is new; a downgrade that is due takes the status one step down before the check.", "quantifier": "all stores, accounts, statuses and updates, with totals that fit into 64 bits", "why_tests_cant": "loops with early exits over lists and levels of any content", "anchors": [{"file": "x/referral/keeper/status_requirements.go", "symbols": ["checkStatusRequirements", "statusRequirementsXByX", "statusRequirementsCore"]}, {"file": "x/referral/keeper/bunch_updater.go", "symbols": ["bunchUpdater.update"]}, {"file": "x/referral/keeper/hooks.go", "symbols": ["Keeper.performDowngrade"]}, {"file": "x/referral/types/types.go", "symbols": ["Status.LinesOpened", "Info.DelegatedAtLevelsUpTo"]}]}
{"id": "C64", "title": "Nobody keeps a status they no longer deserve without a date of downgrade", "statement": "After every operation, each account whose structure does not meet the requirements of its status has a date of downgrade.", "quantifier": "all executions over all networks and environments", "why_tests_cant": "the status of an account depends on records of others; that each of them changes only together with a check of the account is a property of the walk over the ancestors, over networks of any shape", "anchors": [{"file": "x/referral/keeper/bunch_updater.go", "symbols": ["bunchUpdater.update"]}, {"file": "x/referral/keeper/keeper.go", "symbols": ["Keeper.AffirmTransition", "Keeper.SetActive", "Keeper.Compress", "Keeper.OnBalanceChanged"]}, {"file": "x/referral/keeper/status_requirements.go", "symbols": ["checkStatusRequirements"]}]}
{"id": "C65", "title": "Announced downgrades, compressions and banishments happen", "statement": "Whenever a record shows a date in the future for a downgrade, a compression (of an account with a referrer) or a banishment, a task for exactly that time, handler and account is scheduled, and the first block that reaches the time calls the handler with it.", "quantifier": "all executions of operations and blocks from an empty store whose genesis dates come with tasks, time not going backwards, whatever other handlers do", "why_tests_cant": "the date is in one store and the task in another; every operation that writes or removes one must do so with the other, in networks of any shape and after failures", "anchors": [{"file": "x/referral/keeper/keeper.go", "symbols": ["Keeper.SetActive", "Keeper.Compress", "Keeper.OnBalanceChanged", "Keeper.AppendChild", "Keeper.scheduleBanishment", "Keeper.Banish"]}, {"file": "x/referral/keeper/bunch_updater.go", "symbols": ["bunchUpdater.update"]}, {"file": "x/referral/keeper/hooks.go", "symbols": ["Keeper.performDowngrade", "Keeper.performCompression", "Keeper.PerformBanish"]}, {"file": "x/schedule/keeper/keeper.go", "symbols": ["Keeper.PerformSchedule"]}]}
{"id": "C66", "title": "Compression after two months, banishment one month later", "statement": "Registering without a subscription, or losing it, sets the compression 60 days ahead and it is not carried out earlier; buying a subscription removes the dates of compression and banishment; compression removes its date and sets the banishment 30 days ahead exactly if only dust is delegated; a change of delegation sets, removes or keeps the date of banishment by fixed rules; only accounts that are inactive, delegate only dust, have a referrer and are not banished can be banished.", "quantifier": "all states, accounts, balances and environments", "why_tests_cant": "the outcome depends on combinations of activity, delegation, dates and block time over unbounded values", "anchors": [{"file": "x/referral/keeper/keeper.go", "symbols": ["Keeper.SetActive", "Keeper.Compress", "Keeper.OnBalanceChanged", "Keeper.AppendChild", "Keeper.scheduleBanishment", "Keeper.Banish"]}, {"file": "x/referral/keeper/hooks.go", "symbols": ["Keeper.performCompression", "Keeper.PerformBanish"]}]}
{"id": "C67", "title": "Commission of a delegation follows the published table", "statement": "The list of commissions consists exactly of the ancestors, within twenty lines, who are active validators and whose claim by status and distance (1 permille from status 3 within 4 lines, 2 from 4 within 6, 3 from 5 within 10, 4 from 6 within 12, 5 from 7 within 14, 6 from 9 within 20) exceeds the claims of all nearer ancestors, in order of distance, each with the difference.", "quantifier": "all referral trees, statuses and sets of validators", "why_tests_cant": "all chains of up to twenty ancestors with any statuses", "anchors": [{"file": "x/referral/keeper/keeper.go", "symbols": ["Keeper.GetReferralValidatorFeesForDelegating", "Keeper.getReferralValidatorFeesCore"]}]}
{"id": "C68", "title": "Polls are started and answered exactly by those who may", "statement": "An answer is accepted if and only if a poll is open, the respondent meets its requirement (none, qualified as a validator, or at least the status named), and no answer is stored under the respondent's text; accepted answers are stored and counted and nothing else changes, refused ones change nothing. A poll is started if and only if its quorum is between 0 and 1, no other one is open, its author is in the government and its end can be scheduled; it ends after the period set.", "quantifier": "all states, messages and environments", "why_tests_cant": "equivalence over unbounded states and statuses, including the exact limits", "anchors": [{"file": "x/voting/keeper/keeper.go", "symbols": ["Keeper.StartPoll", "Keeper.Answer"]}, {"file": "x/voting/types/types.go", "symbols": ["Poll.Validate"]}, {"file": "x/schedule/keeper/keeper.go", "symbols": ["Key"]}]}
{"id": "C69", "title": "Validators are switched on exactly when they may be", "statement": "An account is found qualified exactly when it is on the staff list or its status, its own delegation and the delegation of its network all reach the minimums. Switching on succeeds exactly for a qualified account that is not banned and not on yet, with a key no active validator uses, and writes exactly the new record and the index entry. An account counts as an active validator exactly when it is on, not jailed, not banned and six jail terms have passed since its last release date.", "quantifier": "all states, accounts, keys, heights and stakes", "why_tests_cant": "equivalences over unbounded states including the exact limits of statuses, stakes and machine numbers", "anchors": [{"file": "x/noding/keeper/keeper.go", "symbols": ["Keeper.IsQualified", "Keeper.SwitchOn", "Keeper.IsActiveValidator", "Keeper.GetValidatorByConsAddr"]}, {"file": "x/noding/types/types.go", "symbols": ["NewInfo", "Info.UpdateScore"]}]}
{"id": "C70", "title": "The score of a validator is its stake, its strokes and its signed blocks", "statement": "In every execution the score of every account equals the logarithm of a stake the account had at some step (or its stake part at the start, or zero for a staff member without a stake recorded), minus its strokes, plus one for every hundred blocks signed in a row. A change of stake renews the stake part; an amnesty clears strokes and jail terms and gives the strokes back to the score.", "quantifier": "all executions and accounts", "why_tests_cant": "induction over executions of any length with incremental updates of the score in four different places", "anchors": [{"file": "x/noding/keeper/keeper.go", "symbols": ["Keeper.MarkStroke", "Keeper.MarkTick", "Keeper.OnStakeChanged", "Keeper.Unjail", "Keeper.GeneralAmnesty"]}, {"file": "x/noding/types/types.go", "symbols": ["Info.UpdateScore"]}]}
{"id": "C71", "title": "Validator parameters and genesis files are accepted exactly when reasonable", "statement": "Parameters are accepted exactly when there is at least one seat, one block of patience and one block of jail, the minimal status exists, the demand on the network is at least that on the account, powers and shares are positive and the shares add up to one. A genesis file is accepted exactly when moreover it has an active validator, the active ones have keys and are neither jailed nor banned, no counter is negative and nobody has both signed and missed blocks in a row.", "quantifier": "all parameters, distributions and genesis files", "why_tests_cant": "exact equivalence over lists of fractions of any length", "anchors": [{"file": "x/noding/types/params.go", "symbols": ["Params.Validate"]}, {"file": "x/noding/types/types.go", "symbols": ["Distribution.Validate", "MinCriteria.Validate"]}, {"file": "x/noding/types/genesis.go", "symbols": ["ValidateGenesis", "validateActiveValidators", "validateNonActiveValidators"]}]}
{"id": "C72", "title": "A chain restarted from its exported validators has the same validators", "statement": "The state left behind by any execution is exported to a genesis file that is accepted and from which the chain starts again with the same accounts and the same records (power, last key and lottery number assigned anew, score from the present stake), the same proposed blocks and parameters, and every key leading to its validator.", "quantifier": "all executions, followed by an export and an import in any environment", "why_tests_cant": "round trip over all reachable stores, including validators that stay on although they no longer qualify", "anchors": [{"file": "x/noding/genesis.go", "symbols": ["InitGenesis", "ExportGenesis"]}, {"file": "x/noding/types/genesis.go", "symbols": ["Validator.ToInfo", "GenesisValidatorFromD"]}, {"file": "x/noding/keeper/keeper.go", "symbols": ["Keeper.GetActiveValidators", "Keeper.GetNonActiveValidators", "Keeper.SetActiveValidators", "Keeper.SetNonActiveValidators", "Keeper.GetBlocksProposedByAll"]}]}
{"id": "C73", "title": "Requests about profiles are accepted exactly when they should be", "statement": "In every state of every execution, with an intact ledger, a positive rate and prices below 2^63: extra storage is sold exactly to active members who can pay a bill of at least one uartr; traffic to active members who can pay the bill; messenger storage to anyone with a profile who can pay, for the rest of its time or a month; it is prolonged exactly if there is some and it can be paid; storage is given up exactly if the new limit is lower and holds what is stored, messenger storage exactly if more is running; a month is sold exactly to those who ask for acceptable storage, can pay the quoted price and are accepted by the referral module; an update is accepted exactly if it asks for something, its nicknames are proper and free, and one ARTR is there for a new one (which is what it costs); reports and rates are taken from the listed signers only; an account is created exactly if there is none, the price can be paid (unless waived), the referrer is accepted and the nickname free.", "quantifier": "all reachable states, all accounts, amounts, updates and answers of the referral module", "why_tests_cant": "equivalences: besides refusing what must be refused, nothing else may stand in the way of a lawful request in any state; tests try a handful of each", "anchors": [{"file": "x/profile/keeper/subscription.go", "symbols": ["Keeper.PayTariff", "Keeper.BuyStorage", "Keeper.BuyVpn", "Keeper.BuyImStorage", "Keeper.GiveStorageUp", "Keeper.GiveImStorageUp", "Keeper.ProlongImExtra"]}, {"file": "x/profile/keeper/keeper.go", "symbols": ["Keeper.SetProfile", "Keeper.ValidateProfileNickname", "Keeper.CreateAccountWithProfile"]}, {"file": "x/profile/keeper/msg_server.go", "symbols": ["msgServer.CreateAccount", "msgServer.UpdateProfile", "msgServer.SetStorageCurrent", "msgServer.SetVpnCurrent", "msgServer.SetRate"]}]}
{"id": "C74", "title": "Only accounts without referrals are banished", "statement": "At every moment, an account that is banished, or for which a date of banishment is set, or that was compressed and has not become active again, has a referrer, is not active, has no date of compression, no referrals and no active referrals, and a status below the indexed ones. So banishment never takes an account away from above others.", "quantifier": "all genesis files with records in order, all executions (registrations, payments, subscriptions, transitions, compressions, banishments, returns) of any length in which tasks run on time", "why_tests_cant": "an invariant over all interleavings of the life of an account with that of its relatives: registrations, returns and transitions must all refuse to put anybody below an account that is out of business", "anchors": [{"file": "x/referral/keeper/keeper.go", "symbols": ["Keeper.appendChild", "Keeper.Compress", "Keeper.OnBalanceChanged", "Keeper.SetActive", "Keeper.AffirmTransition", "Keeper.validateTransition", "Keeper.Banish", "Keeper.ComeBack"]}, {"file": "x/referral/types/types.go", "symbols": ["Info.RegistrationClosed"]}, {"file": "x/referral/keeper/hooks.go", "symbols": ["Keeper.PerformBanish", "Keeper.PerformCompression"]}]}
{"id": "C75", "title": "The list of accounts with a high status is exact", "statement": "The query for all accounts with a status answers, for the indexed statuses (5, 6, 7, 9), with exactly the accounts that have this status, each once; for all other numbers it is refused.", "quantifier": "all genesis files with records in order, all executions of any length in which tasks run on time and do not fail halfway; all statuses", "why_tests_cant": "the index is kept by one function while records are written by many, some of which set the status directly; exactness is an invariant of all of them together", "anchors": [{"file": "x/referral/keeper/keeper.go", "symbols": ["Keeper.setStatus", "Keeper.Banish", "Keeper.ComeBack", "Keeper.OnBalanceChanged", "Keeper.Compress"]}, {"file": "x/referral/keeper/query_server.go", "symbols": ["QueryServer.AllWithStatus"]}, {"file": "x/referral/types/types.go", "symbols": ["Status.Validate"]}, {"file": "x/referral/keeper/genesis.go", "symbols": ["Keeper.ImportFromGenesis"]}]}
{"id": "C76", "title": "An enacted proposal does what it says and nothing else", "statement": "A proposal of the government that is put into force sets the named value to the proposed one, or puts the named account on the named list or strikes it off, or clears the records of validators, and changes nothing else. A proposal that cannot be put into force changes nothing. The parameters of all modules stay ones their validators accept. Every proposal accepted for voting can be put into force.", "quantifier": "all 49 types of proposals with all arguments, all states of the parameters and lists of all modules", "why_tests_cant": "a frame property over every parameter of every module, for all arguments and states", "anchors": [{"file": "x/voting/keeper/keeper.go", "symbols": ["Keeper.EndProposal"]}, {"file": "x/voting/types/types.go", "symbols": ["Proposal.Validate"]}, {"file": "x/voting/types/msgs.go", "symbols": ["MsgPropose.ValidateBasic"]}, {"file": "x/voting/keeper/government.go", "symbols": ["Keeper.AddGovernor", "Keeper.RemoveGovernor"]}, {"file": "x/profile/keeper/params.go", "symbols": ["Keeper.SetParams", "add", "remove"]}, {"file": "x/earning/keeper/params.go", "symbols": ["Keeper.AddSigner", "Keeper.RemoveSigner"]}, {"file": "x/bank/internal/keeper/send.go", "symbols": ["BaseSendKeeper.AddBlockedSender", "BaseSendKeeper.RemoveBlockedSender"]}, {"file": "x/noding/keeper/keeper.go", "symbols": ["Keeper.AddToStaff", "Keeper.RemoveFromStaff", "Keeper.GeneralAmnesty"]}, {"file": "util/lists.go", "symbols": ["AddStringOntoEnd", "RemoveStringFast"]}]}
{"id": "C77", "title": "The referral structure survives export and import", "statement": "The export of the referral module always ends. A new chain can be started from what it writes, and then has exactly the accounts of the old one; every account keeps its referrer, its referrals in their order and whether it is banished, its pending dates of compression, banishment and downgrade, its pending wish to move, and the status that is about to be lowered; the index of high statuses is exact. The new chain exports the same file again.", "quantifier": "all states with a consistent structure, in particular all those reached by executions", "why_tests_cant": "forests of every shape and size; the export walks level by level through two queues and the import rebuilds every record and the aggregates of ten levels above it", "anchors": [{"file": "x/referral/keeper/genesis.go", "symbols": ["Keeper.ExportToGenesis", "Keeper.ImportFromGenesis"]}, {"file": "x/referral/keeper/keeper.go", "symbols": ["Keeper.GetTopLevelAndBanishedAccounts", "Keeper.AddTopLevelAccount", "Keeper.appendChild"]}]}
{"id": "C78", "title": "Delegations and revocations are accepted exactly when they should be", "statement": "A request to revoke is accepted if and only if its amount is positive and not more than what the account has delegated; in particular, everybody can get their delegated coins back. A request to delegate is accepted if and only if its amount is positive and at least the minimum, the account can pay the fee from its spendable coins, and the amount is not more than its spendable coins together with the interest that is paid to it on this occasion.", "quantifier": "all reachable states, accounts, amounts, tables of percentages, moments of the day", "why_tests_cant": "acceptance depends on the whole chain of payments inside the request – the fee, the interest for a part of the day, the beneficiaries, the conversion of coins, the scheduling of two tasks – none of which may refuse or panic for any amount", "anchors": [{"file": "x/delegating/keeper/keeper.go", "symbols": ["Keeper.Delegate", "Keeper.Revoke", "Keeper.accruePart"]}, {"file": "x/delegating/keeper/msg_server.go", "symbols": ["MsgServer.Delegate", "MsgServer.Revoke", "MsgServer.ExpressRevoke"]}, {"file": "x/delegating/types/msgs.go", "symbols": ["MsgDelegate.ValidateBasic", "MsgRevoke.ValidateBasic"]}]}
{"id": "C79", "title": "Upgrades neither create nor destroy coins", "statement": "The upgrade that delegates everybody's coins leaves each account's number of coins and the supply as they are, turns all coins of the accounts concerned into delegated ones and cancels their open revocation requests, touches no other account, makes the delegated totals of all unbanished referral records equal to their totals of coins, and arranges the next accrual of interest so that every coin counts for exactly the time it has been delegated. The upgrade that empties the collectors moves all their coins to the company. Neither stops the chain.", "quantifier": "all states satisfying the invariants of the chain, all times of the upgrade, any number of accounts", "why_tests_cant": "an upgrade runs once, over all accounts of the live chain, writing balances past the bank's checks; there is no later check that would show a coin created or lost, and a panic stops the chain for good", "anchors": [{"file": "app/upgrade.go", "symbols": ["ForceGlobalDelegation", "EmptyEarningVpnStorageCollectors"]}, {"file": "x/referral/keeper/keeper.go", "symbols": ["Keeper.Iterate"]}]}
{"id": "C80", "title": "A refresh gives everybody the status they deserve", "statement": "The refresh of all referral statuses at the end of the import of profiles, and in the upgrade RefreshReferralStatuses, treats every account as its structure demands, whatever the order of accounts: a deserved status is kept and raised to the best one reached from it without a gap; an undeserved one is kept and gets a date of downgrade in two days backed by a task, unless it has a date already; nothing else of any record changes, no record comes or goes, and the index of high statuses stays exact. It does not stop the chain. From then on nobody has a status above what their structure allows without a date of downgrade, whatever the genesis file said. A restart from an exported file leaves statuses as they are.", "quantifier": "all referral stores with any number of accounts, all sets of statuses and dates before the refresh, all executions after it", "why_tests_cant": "the check of one account reads the records of others that the same pass changes, so that the result could depend on the order of accounts; the refresh runs once per chain over all of them, and a single panic stops the start of the chain", "anchors": [{"file": "x/referral/keeper/keeper.go", "symbols": ["Keeper.Iterate"]}, {"file": "x/referral/keeper/bunch_updater.go", "symbols": ["bunchUpdater.update", "bunchUpdater.commit"]}, {"file": "x/profile/keeper/genesis.go", "symbols": ["Keeper.ImportProfileRecords"]}, {"file": "app/upgrade.go", "symbols": ["RefreshReferralStatuses"]}]}
{"id": "C81", "title": "The archives of proposals and polls are complete", "statement": "Every proposal that ends, by vote or by its deadline, is put on record exactly once, in the order of the ends, with the government of that moment, those who voted yes and no in the order of their votes, and the blocks of its beginning and end; every poll that closes is put on record exactly once with the counts of the accepted answers and the verdict. Nothing else is on record and no record changes later. The queries show the proposal and poll under way with the votes and counts so far, and reading the pages of an archive one after the other yields all of it, each record once.", "quantifier": "all executions from a fresh start with any number of proposals, votes, polls, answers, blocks and actions of other modules, all page sizes and page numbers", "why_tests_cant": "records share keys made of block heights and seconds, so that completeness depends on which ends can ever fall together in any history of the chain; page arithmetic goes wrong only for numbers near 2^31", "anchors": [{"file": "x/voting/keeper/keeper.go", "symbols": ["Keeper.SaveProposalToHistory", "Keeper.GetHistory", "Keeper.EndPoll", "Keeper.GetPollHistory", "Keeper.GetPollStatus"]}, {"file": "x/voting/keeper/query_server.go", "symbols": ["QueryServer.Current", "QueryServer.Poll", "QueryServer.History", "QueryServer.PollHistory"]}]}
{"id": "C82", "title": "Upgrade 2.5.8: accounts at the top lose their subscription, renewals are planned", "statement": "The upgrade takes the subscription and the activity from exactly the accounts without referrer and changes nothing else of any record or profile, and no money. No task is lost; for every subscription that is left a renewal is planned at its end and at every full month before, as far as these moments are more than a month away, and nothing else is planned. It runs through if a month is longer than nothing and all subscriptions end before 2263. From then on, given that those ending within the month had theirs, every running subscription has its renewal at its end. The numbers of active accounts (C24) stay right, and nobody at the top is charged for a subscription that was taken away.", "quantifier": "all states of the referral, profile and schedule stores, all lengths of a month, and all executions that follow", "why_tests_cant": "a migration runs once on a state no test has: the effects depend on every record, on stale tasks in the schedule and on what later renewals do with records the migration wrote directly to the store", "anchors": [{"file": "app/upgrade.go", "symbols": ["DeactivateTopLevelAccounts", "AddMissingProfileRefreshTask"]}, {"file": "app/app.go", "symbols": ["NewArteryApp"]}, {"file": "x/profile/keeper/subscription.go", "symbols": ["Keeper.monthlyRoutine", "Keeper.PayTariff", "Keeper.resetLimits"]}, {"file": "x/referral/keeper/keeper.go", "symbols": ["Keeper.SetActive"]}]}
{"id": "C83", "title": "Queries about networks, statuses and transitions tell the truth", "statement": "The query about coins of an account down to a depth answers the sum of all coins, and of all delegated coins, of the account and the accounts below it down to that depth, but not deeper than the lines its status opens; depth zero means no limit. The query about a status is refused exactly for statuses that do not exist and otherwise tells whether the account meets the demands of that status. The query about a transition always answers, and says yes exactly when the subject may be moved: it has no pending transition, the destination is another account than the subject and its referrer, is not below the subject, and still takes new referrals (it has no referrer, or is not banished and either active or at least thirty days before its compression); a request is then accepted exactly when the query says yes, the price can be paid and the time of its timeout can be stored. Only registered accounts can ask to be moved, and only to registered accounts.", "quantifier": "all reachable structures, all accounts, depths, statuses, subjects and destinations", "why_tests_cant": "the stored per-level sums must equal sums over unbounded trees after any history; acceptance is compared with an independent specification on all structures", "anchors": [{"file": "x/referral/keeper/query_server.go", "symbols": ["QueryServer.Coins", "QueryServer.CheckStatus", "QueryServer.ValidateTransition"]}, {"file": "x/referral/keeper/keeper.go", "symbols": ["Keeper.GetCoinsInNetwork", "Keeper.GetDelegatedInNetwork", "Keeper.validateTransition", "Keeper.RequestTransition"]}, {"file": "x/referral/types/types.go", "symbols": ["Info.CoinsAtLevelsUpTo", "Info.DelegatedAtLevelsUpTo", "Status.LinesOpened", "Info.RegistrationClosed"]}]}
{"id": "C84", "title": "An approved transition is carried out exactly when it is still allowed", "statement": "When the current referrer approves a pending transition, it goes through exactly when the subject may be moved at that moment (the destination is neither the subject nor its referrer nor below it, and still takes new referrals): no bookkeeping of totals, statuses or lists of referrals along the old and the new line makes it fail or crash halfway. A request that is accepted can always be resolved by somebody.", "quantifier": "all executions, all pending transitions, any changes of the structure between request and approval", "why_tests_cant": "the move updates up to twenty records with subtractions that must not go below zero and status checks that must not overflow; whether one of them can fail depends on invariants over the whole tree", "anchors": [{"file": "x/referral/keeper/keeper.go", "symbols": ["Keeper.AffirmTransition", "Keeper.RequestTransition"]}, {"file": "x/referral/keeper/msg_server.go", "symbols": ["MsgServer.ResolveTransition"]}, {"file": "x/referral/keeper/bunch_updater.go", "symbols": ["bunchUpdater.update", "bunchUpdater.commit"]}]}
{"id": "C85", "title": "Blocks, votes and misbehaviour are credited to the account that runs the node", "statement": "When a block starts, its proposer, its votes and its evidence are booked to the accounts that run the nodes with these keys, for every key that has ever been handed to the consensus engine, also after the account has been switched off, jailed or banned: the proposer's counter grows by one; an account whose node signed has one more signed block and none missed, one whose node missed has a stroke, and goes to jail when it has missed too many in a row, unless it is there already; each piece of evidence is an infraction, and two of them a ban; the records of all other accounts stay as they are. The query for the proposer of a height names, for ever, the account whose node proposed the block of that height. The query for the operator of a node names the account that runs it, the query for switched-on accounts lists exactly those that are on, not jailed and not banned, each once, and the query for the queue lists exactly the accounts with a number, by number.", "quantifier": "all executions, all blocks with any proposer, votes and evidence from the engine's sets", "why_tests_cant": "the lookup goes through an index of keys that is never cleared and is rewritten at the end of each block; that it is right for old keys needs an invariant over all executions", "anchors": [{"file": "x/noding/abci.go", "symbols": ["BeginBlocker", "findValidatorAccAddress", "punishWrongdoers", "markStrokesAndTicks", "payProposerReward"]}, {"file": "x/noding/keeper/keeper.go", "symbols": ["Keeper.MarkStroke", "Keeper.MarkTick", "Keeper.MarkByzantine", "Keeper.PayProposerReward", "Keeper.GetBlockProposer", "Keeper.GetActiveValidatorList"]}, {"file": "x/noding/keeper/query_server.go", "symbols": ["QueryServer.Proposer", "QueryServer.Operator", "QueryServer.SwitchedOn", "QueryServer.Queue"]}]}
{"id": "C86", "title": "Version 2.4.5 announces every banishment that is missing", "statement": "The upgrade gives every account that is inactive, has no more than the dust delegated, is not banished, has no date of banishment and is not waiting for a compression such a date: an hour and a quarter of a minute from now for the first, a quarter of a minute more for each further one in the order of the store; each date is backed by a task that banishes the account then. All other dates, sums and links stay as they are, all statuses are treated as by a refresh (C80), no task is lost, and if the scheduler knew of all dates before, it does after. The upgrade does not stop the chain.", "quantifier": "all stores of accounts, schedules and balances", "why_tests_cant": "the dates depend on the whole store and the status checks run in between; that neither disturbs the other needs an induction over all accounts", "anchors": [{"file": "app/upgrade.go", "symbols": ["ScheduleMissingBanishmentAndRefreshReferralStatuses"]}, {"file": "x/referral/keeper/keeper.go", "symbols": ["Keeper.Iterate", "Keeper.Banish"]}]}
{"id": "C87", "title": "Versions 2.4.3 and 2.4.4 bring downgrades forward", "statement": "After version 2.4.3 no downgrade is announced for later than two days from the upgrade, earlier dates and everything else in the records stay, and each downgrade happens on the date announced. Version 2.4.4 runs each downgrade that is overdue but kept for a later moment within a quarter of a minute times their number, and leaves all other tasks as they were.", "quantifier": "all stores of accounts and schedules", "why_tests_cant": "what the scheduler runs in any later block is compared for all schedules; collisions of moments need particular schedules", "anchors": [{"file": "app/upgrade.go", "symbols": ["UpdateStatusDowngradeTasks", "FixStatusDowngradeTasks"]}, {"file": "x/schedule/keeper/keeper.go", "symbols": ["Keeper.PerformSchedule", "Key"]}]}
{"id": "C88", "title": "Version 2.0.1 corrects the lists of active referrals", "statement": "After the upgrade every list of active referrals names exactly the referrals that are active, each once. Records whose lists were right stay as they are; in the others only the list, the status and the date of a downgrade change, the latter two as a check of the status demands (C63). No task of the scheduler is lost, and the upgrade does not stop the chain.", "quantifier": "all stores of accounts and schedules", "why_tests_cant": "status checks of one account read the records of others that are still to be corrected; that the order does not matter is an induction over all accounts", "anchors": [{"file": "app/upgrade.go", "symbols": ["RecalculateActiveReferrals"]}, {"file": "x/referral/keeper/keeper.go", "symbols": ["Keeper.Iterate", "Keeper.Get"]}]}
{"id": "C89", "title": "Version 2.3.2 takes accounts away from banished referrers", "statement": "After the upgrade nobody present has a banished referrer: each such account is below the first account above the banished one that is open for registration. All other referrers stay, and so does everything else in the records but lists of referrals and sums of money below. If lists of referrals and referrers agreed before, they agree afterwards. So do sums of money and numbers of active accounts below, if they were right before. Nothing goes wrong on the way.", "quantifier": "all stores of accounts without cycles, all clock times", "why_tests_cant": "the loop reads the records of the start while it changes those of accounts it visits later; what it does depends on the order of addresses in the store", "anchors": [{"file": "app/upgrade.go", "symbols": ["TransferFromTheBanished"]}, {"file": "x/referral/types/types.go", "symbols": ["Info.RegistrationClosed"]}]}
{"id": "C90", "title": "Version 2.3.2 readmits banished accounts with delegated coins", "statement": "After the upgrade every banished account that had delegated more than the dust is readmitted at the lowest status without dates of banishment and compression, below the first account above it that is open for registration. Other banished accounts only lose the date of compression, and all else stays but for lists of referrals and sums of money below. Lists of referrals and referrers agree afterwards if they did before. Sums of money below are right afterwards if they were before. Nothing goes wrong on the way.", "quantifier": "all stores of accounts without cycles, all balances and clock times", "why_tests_cant": "whether an account is open depends on what the loop did before; that is proved for all stores and orders of addresses", "anchors": [{"file": "app/upgrade.go", "symbols": ["UnbanishAccountsWithDelegation"]}, {"file": "x/referral/types/types.go", "symbols": ["Info.RegistrationClosed"]}]}
{"id": "C91", "title": "Attributes of events show the texts of the message", "statement": "When a module emits an event, every field that is not null becomes one attribute. A field that is a text is shown exactly as it is in the message; other values are shown as written in JSON. The attributes do not depend on the order in which the fields are taken, apart from their own order.", "quantifier": "all messages, all texts", "why_tests_cant": "two replacements run one after the other over escaped text of any length; whether they undo the escaping depends on how escapes meet, for all texts", "anchors": [{"file": "util/msg_server.go", "symbols": ["patchEvent", "EmitEvent", "EmitEvents"]}]}
{"id": "C92", "title": "The amounts in the referral structure are the balances in the bank", "statement": "After any execution, the own coins and the own delegation recorded for every account of the referral structure are its balance and its delegation in the bank, whatever registrations, payments, delegations, compressions, banishments, returns and transitions there were. So the amount recorded for an account at each of the ten levels is the sum of the bank balances of the accounts present at that depth.", "quantifier": "all executions, all accounts, all levels", "why_tests_cant": "two modules keep the same number, one by hooks on every change; that they agree is an invariant over executions of any length with all kinds of operations in between", "anchors": [{"file": "x/referral/keeper/keeper.go", "symbols": ["OnBalanceChanged", "appendChild", "AddTopLevelAccount", "Compress", "Banish", "ComeBack", "SetActive", "RequestTransition", "AffirmTransition", "getBalance", "getDelegated"]}, {"file": "x/referral/keeper/bunch_updater.go", "symbols": ["update", "set", "commit"]}, {"file": "x/profile/keeper/keeper.go", "symbols": ["CreateAccountWithProfile"]}]}
{"id": "C93", "title": "Version 2.2.0 switches off exactly the validators that do not qualify", "statement": "The upgrade 2.2.0 goes through all running validators and switches off those that do not meet the criteria of status, own delegation and delegation in the network and are not on the staff; validators the referral module does not know are left alone. Afterwards every running validator known to the referral module meets the criteria. Nobody is switched on, no other part of any record changes, and those that stay keep their places in the queue.", "quantifier": "all stores of validators, all stakes, statuses and parameters", "why_tests_cant": "every combination of running, jailed, banned, queued and staff validators with every stake, with stores left behind by earlier defects", "anchors": [{"file": "app/upgrade.go", "symbols": ["ForceOnStatusChangedCallback"]}, {"file": "x/noding/keeper/keeper.go", "symbols": ["GetActiveValidatorList", "IsQualified", "SwitchOff", "update"]}, {"file": "x/noding/keeper/lottery.go", "symbols": ["lotteryExclude"]}]}
{"id": "C94", "title": "The move from version 1 keeps dates, tasks and coins", "statement": "The script that turns the genesis file of version 1 (dates are block heights) into one of version 2 (dates are times) writes for every height the moment 30 seconds per block after the export, divided by the speed, and keeps their order. Interest falls due at the first height that leaves the remainder of the cluster, within the first day, with exactly one task at the very moment of the record. No open request is lost, and where the dates of version 1 (compressions, downgrades, revocations, subscriptions) have their tasks, those of version 2 have theirs at the same moment, in the form the handlers of version 2 take. No coins are lost or made. The voting period is the shortest number of hours that is not shorter. Version 2 starts from the file.", "quantifier": "all files, heights, clusters, speeds from 1 to 1440", "why_tests_cant": "the parts of the file are written by different functions and must agree for every height, remainder and speed", "anchors": [{"file": "patch-genesis/util.py", "symbols": ["height_to_time", "modulo_to_time", "blocks_to_duration"]}, {"file": "patch-genesis/x/schedule.py", "symbols": ["_patch_acc_address", "_patch_schedule_task", "patch"]}, {"file": "patch-genesis/x/delegating.py", "symbols": ["patch"]}, {"file": "patch-genesis/x/bank.py", "symbols": ["patch"]}, {"file": "patch-genesis/x/referral.py", "symbols": ["patch"]}, {"file": "patch-genesis/x/profile.py", "symbols": ["patch"]}, {"file": "patch-genesis/x/voting.py", "symbols": ["patch"]}, {"file": "x/schedule/keeper/genesis.go", "symbols": ["InitGenesis"]}, {"file": "x/referral/keeper/hooks.go", "symbols": ["PerformBanish"]}]}
{"id": "C95", "title": "Version 2.1.0 puts the banishments in order", "statement": "Version 2.1.0 drops exactly the tasks of banishment of accounts that are active, already banished, own more than the dust in delegation or are still to be compressed according to their record and the scheduler; it turns the bytes of an address into its text in the others and touches no other task. Afterwards the record of an account tells a date of banishment if and only if the scheduler has a task for that date. Compressions to come that the scheduler does not know are forgotten, nothing else in a record changes. Records under anything but the text of an address are deleted. Accounts that were banished though active are back in the structure, which stays consistent.", "quantifier": "all stores and schedules, any number of tasks, accounts and garbage records, all outcomes of callbacks", "why_tests_cant": "the loop changes the stores it reads, the outcome for an account depends on all its tasks and on the tasks of other moments", "anchors": [{"file": "app/upgrade.go", "symbols": ["ScheduleBanishment"]}, {"file": "x/referral/keeper/keeper.go", "symbols": ["ComeBack"]}]}
{"id": "C96", "title": "Upgrades that add parameters work on the chain of the version before", "statement": "An upgrade that adds parameters (2.4.2, 2.4.4, 2.4.6 and 2.4.8 for the bank, 2.2.0 for voting), run on a chain that holds the parameters of the version before with accepted values, succeeds, gives the new parameters their values, leaves all others as they are, and the result is accepted.", "quantifier": "all values of the parameters that their validators accept", "why_tests_cant": "a frame property for all values; a test with default parameters has the later ones in the store already", "anchors": [{"file": "app/upgrade.go", "symbols": ["InitTransactionFeeParam", "InitMaxTransactionFeeParam", "InitTransactionFeeSplitRatiosAndCompanyAccountParams", "InitBlockedSendersParam", "InitPollPeriodParam"]}, {"file": "x/bank/types/params.go", "symbols": ["Params.ParamSetPairs", "validateTransactionFeeSplitRatios"]}, {"file": "x/voting/types/params.go", "symbols": ["validateVotingPeriod"]}]}
{"id": "C97", "title": "There is always a validator and the consensus engine takes every list of updates", "statement": "The list of updates that the chain sends to the consensus engine at the end of a block is never refused: it leaves at least one validator, and the power of all validators together stays within the limit of the engine. A refused list stops the chain.", "quantifier": "for all sequences of operations of the module with validators, evidence, missed blocks, changes of parameters and ends of blocks", "why_tests_cant": "needs the engine's checks and all ways in which the last validator can drop out; the tests of the repository run without an engine", "anchors": [{"file": "x/noding/abci.go", "symbols": ["EndBlocker"]}, {"file": "x/noding/keeper/keeper.go", "symbols": ["Keeper.GatherValidatorUpdates", "Keeper.SwitchOff", "Keeper.MarkStroke", "Keeper.MarkByzantine"]}, {"file": "x/noding/types/params.go", "symbols": ["Params.Validate"]}]}
{"id": "C98", "title": "The schedule query shows what is going to run", "statement": "The query for the tasks of a period within the years 1970 to 2262 shows exactly the tasks scheduled for it, each once, by time and then in the order they were requested; asked up to the time of the next block it shows exactly what this block runs, in this order; reading a period in parts shows the same as reading it at once; the query for everything shows all tasks.", "quantifier": "for all sequences of requests and blocks with arbitrary handlers, and all periods", "why_tests_cant": "relates the byte order of keys, the content of the store after any history and the execution of a later block; there are no tests of the query", "anchors": [{"file": "x/schedule/keeper/query_server.go", "symbols": ["QueryServer.Get", "QueryServer.All"]}, {"file": "x/schedule/keeper/keeper.go", "symbols": ["Keeper.GetTasks", "Keeper.PerformSchedule", "Key"]}]}
{"id": "C99", "title": "The earner queries show what was reported", "statement": "Queries about accounts show for each of them, in the order asked, the times of its last report; a time may be missing only if it is two days old or older. Whoever counts as earner is shown with the time that makes them one. The list of earners consists of the accounts for which a time is shown.", "quantifier": "for all histories of reports, checks, passing time and changes of the list of signers, from any genesis file, and all lists of accounts", "why_tests_cant": "checks by other modules remove old times at any moment in between; what is shown depends on the whole history", "anchors": [{"file": "x/earning/keeper/query_server.go", "symbols": ["QueryServer.Get", "QueryServer.GetMultiple", "QueryServer.List"]}, {"file": "x/earning/keeper/keeper.go", "symbols": ["Keeper.IsActiveEarner"]}, {"file": "x/earning/types/genesis.go", "symbols": ["ValidateGenesis"]}]}
{"id": "C100", "title": "Nobody's coins go down but by their own doing", "statement": "An account has fewer coins of some kind after an operation only in these cases: it signed the payment, transfer, burning, delegation or revocation, or the purchase in question (gas included); it created an account without being listed as free creator; a renewal it asked for by automatic payment is due; its revocation ends (then the coins being revoked become main coins of the same account, one for one); it is banished (then delegated coins only); it is a fee collector when the proposer is paid. Interest, reports, parameter changes and giving up storage take nothing from anybody. This holds also when an operation fails half-way in a begin-block task.", "quantifier": "for all states, operations, hooks and histories, successful or not", "why_tests_cant": "a statement about every other account for every operation, including partial failures that are not rolled back", "anchors": [{"file": "x/bank/keeper/send.go", "symbols": ["BaseSendKeeper.SendCoins", "BaseSendKeeper.SubtractCoins", "BaseSendKeeper.AddCoins", "BaseSendKeeper.InputOutputCoins"]}, {"file": "x/delegating/keeper/keeper.go", "symbols": ["Keeper.Revoke", "Keeper.Delegate", "Keeper.accrue", "Keeper.accrueToValidator"]}, {"file": "x/delegating/keeper/hooks.go", "symbols": ["Keeper.performRevoking", "Keeper.MustPerformAccrue", "Keeper.OnBanished"]}, {"file": "x/noding/keeper/keeper.go", "symbols": ["Keeper.PayProposerReward"]}, {"file": "x/profile/keeper/subscription.go", "symbols": ["Keeper.PayTariff", "Keeper.monthlyRoutine", "Keeper.monthlyImRoutine", "Keeper.BuyStorage"]}, {"file": "x/profile/keeper/keeper.go", "symbols": ["Keeper.SetProfile"]}]}
{"id": "C101", "title": "The answer whether an account may run a validator is true", "statement": "The query says \"allowed\", without a reason, exactly of accounts that are on the staff list or reach all three minimums (status, own delegation, delegation of the network), and otherwise names the first minimum missed. Whoever is told \"allowed\" can switch a validator on with a key nobody uses, unless it is on already; whoever is not told so is refused with every key.", "quantifier": "for all accounts, keys, parameters and states reached by any execution", "why_tests_cant": "relates two entry points (query and message) over all states and all keys", "anchors": [{"file": "x/noding/keeper/query_server.go", "symbols": ["QueryServer.IsAllowed"]}, {"file": "x/noding/keeper/querier.go", "symbols": ["queryAllowed"]}, {"file": "x/noding/keeper/keeper.go", "symbols": ["Keeper.IsQualified", "Keeper.SwitchOn", "Keeper.IsBanned"]}]}
{"id": "C102", "title": "A chain started from exported files has the same network and the same amounts", "statement": "When the referral structure, the balances and the list of running subscriptions are exported and a new chain is started from them, in the order in which the application imports its modules, the new chain has the same accounts, and each of them has the referrer, the referrals in their order, the banishment, the subscription, the coins, delegated coins and subscribers on every level of its network, the date of compression and the wish to move that it had; the lists of active referrals have the same members. Nothing of this is written to the file of the referral module but the structure and the dates: the amounts are rebuilt from the balances and the subscriptions.", "quantifier": "for all executions of the old chain, all orders of the balances and subscriptions in the files, and all outcomes of the status checks", "why_tests_cant": "compares two chains after arbitrary executions: the amounts kept up to date step by step with those rebuilt from scratch, in networks of every shape", "anchors": [{"file": "x/referral/keeper/genesis.go", "symbols": ["Keeper.ExportToGenesis", "Keeper.ImportFromGenesis"]}, {"file": "x/bank/internal/keeper/genesis.go", "symbols": ["BaseKeeper.InitGenesis"]}, {"file": "x/profile/keeper/genesis.go", "symbols": ["Keeper.ImportProfileRecords"]}, {"file": "x/referral/keeper/keeper.go", "symbols": ["Keeper.OnBalanceChanged", "Keeper.MustSetActiveWithoutStatusUpdate"]}, {"file": "app/app.go", "symbols": ["NewArteryApp"]}]}
{"id": "C103", "title": "Look-ups by nickname and card number answer, and show the right profile", "statement": "Queries for a profile by nickname or card number never crash: whatever happened on the chain, an account found in one of the indexes has a profile. A card number other than zero leads to the account that has it, and to nothing if no account has it. A nickname, in any letter case, leads to the account that has it, and to nothing if no account has it.", "quantifier": "for all executions of the profile module (including blocks, other modules' effects and the import of a genesis file), all nicknames and card numbers asked for", "why_tests_cant": "the handlers dereference the profile without a check, so the absence of a crash is an invariant of two indexes over all executions, including operations that fail half way in a block", "anchors": [{"file": "x/profile/keeper/query_server.go", "symbols": ["QueryServer.GetByAddress", "QueryServer.GetByNickname", "QueryServer.GetByCardNumber"]}, {"file": "x/profile/keeper/keeper.go", "symbols": ["Keeper.SetProfile", "Keeper.GetProfileAccountByNickname", "Keeper.GetProfileAccountByCardNumber", "Keeper.removeProfileAccountByNickname"]}, {"file": "x/profile/keeper/genesis.go", "symbols": ["Keeper.ImportProfileRecords"]}]}
{"id": "C104", "title": "Parameters and lists of accounts change only by the will of the government", "statement": "Whatever happened since the start of the chain: if a parameter that proposals can set has another value than at the start, then a proposal asking for just this value was made, and while it was open at least two thirds of the government of that time, each member counted once, themselves sent the proposal or a vote for it. Likewise an account joined or left the government, the lists of signers, of account creators and of blocked senders only by such a proposal about this account and this list.", "quantifier": "for all executions of proposals, votes, polls, blocks and operations of other modules, all assignments of types and arguments to proposals, all surroundings", "why_tests_cant": "it joins the messages sent over a whole execution with the effect of an enactment at its end, for forty types of proposals and any interleaving with everything else", "anchors": [{"file": "x/voting/keeper/keeper.go", "symbols": ["Keeper.Propose", "Keeper.Vote", "Keeper.EndProposal"]}, {"file": "x/voting/keeper/government.go", "symbols": ["Keeper.AddGovernor", "Keeper.RemoveGovernor"]}, {"file": "x/profile/keeper/params.go", "symbols": ["Keeper.AddFreeCreator", "Keeper.RemoveFreeCreator"]}, {"file": "x/bank/internal/keeper/send.go", "symbols": ["BaseSendKeeper.AddBlockedSender", "BaseSendKeeper.RemoveBlockedSender"]}, {"file": "x/earning/keeper/params.go", "symbols": ["Keeper.AddSigner", "Keeper.RemoveSigner"]}]}
{"id": "C105", "title": "An account keeps at most one nickname from others", "statement": "An account occupies at most one nickname, the one in its profile: whoever gives up a nickname, or takes another one, leaves the former free for others.", "quantifier": "for all executions of the profile module and all accounts and nicknames", "why_tests_cant": "it is an invariant of the index of nicknames against all profiles over all executions; examples with ordinary names pass", "anchors": [{"file": "x/profile/keeper/keeper.go", "symbols": ["Keeper.SetProfile", "Keeper.removeProfileAccountByNickname", "Keeper.GetProfileAccountByNickname"]}, {"file": "x/profile/types/msgs.go", "symbols": ["MsgUpdateProfile.ValidateBasic", "MsgCreateAccount.ValidateBasic"]}]}
{"id": "C106", "title": "Version 2.5.0 forgets all earners", "statement": "Version 2.5.0 leaves no record in the earning store, whatever the store held and in whatever form; from then on an account counts as an earner iff an activity reported since is less than two days old.", "quantifier": "for all contents of the store, all later histories of reports, checks, passing time and changes of signers, and all accounts", "why_tests_cant": "the upgrade runs once, on a store no test has; an entry that survived would show only when that account is checked later", "anchors": [{"file": "app/upgrade.go", "symbols": ["CleanEarningStore"]}, {"file": "x/earning/keeper/keeper.go", "symbols": ["Keeper.IsActiveEarner"]}]}
{"id": "C107", "title": "The referral module turns no subscriber away", "statement": "A subscription of a registered account is never refused by the referral module. Afterwards the account is active, not banished and without a date of compression; it keeps its referrer or, if it was banished, is below the first account from its former referrer upwards that is open for registration (below nobody if there is none), and it is in that referrer's lists of referrals and of active referrals.", "quantifier": "for all executions of the referral module, all accounts and all times", "why_tests_cant": "a refusal needs a chain of accounts above the subscriber in some unforeseen condition: negative sums, missing records, cycles, closed or banished accounts all the way up", "anchors": [{"file": "x/profile/keeper/subscription.go", "symbols": ["Keeper.PayTariff"]}, {"file": "x/referral/keeper/keeper.go", "symbols": ["Keeper.ComeBack", "Keeper.SetActive"]}, {"file": "x/referral/types/types.go", "symbols": ["Info.RegistrationClosed"]}]}
{"id": "C108", "title": "A subscription that ends takes effect in the referral structure", "statement": "When the subscription of an active account ends, the referral module always carries it out: the account becomes inactive with a date of compression 60 days ahead, is in nobody's list of active referrals, keeps its referrer and its place in the list of referrals, and nobody else's activity or referrer changes.", "quantifier": "for all executions of the referral module, all active accounts and all times", "why_tests_cant": "the step panics if the status of any of ten ancestors cannot be computed, and the panic is swallowed by the scheduler, leaving an unpaid account active for good", "anchors": [{"file": "x/profile/keeper/subscription.go", "symbols": ["Keeper.monthlyRoutine"]}, {"file": "x/referral/keeper/keeper.go", "symbols": ["Keeper.SetActive", "Keeper.MustSetActive"]}, {"file": "x/referral/keeper/bunch_updater.go", "symbols": ["bunchUpdater.update"]}]}
{"id": "C109", "title": "Who may register below whom", "statement": "The referral module accepts a registration exactly if the account is not registered yet and the referrer is another registered account that is open for registration: at the top of the structure, or present and either active or inactive for at most a month. An accepted account is below this referrer, in its list of referrals, and in the list of active referrals if it starts with a subscription. A refused registration changes nothing.", "quantifier": "for all executions of the referral module, all pairs of accounts and all times", "why_tests_cant": "a registration touches ten ancestors, each of which can refuse it; whether it is accepted depends on the whole history of the structure", "anchors": [{"file": "x/profile/keeper/keeper.go", "symbols": ["Keeper.CreateAccountWithProfile"]}, {"file": "x/referral/keeper/keeper.go", "symbols": ["Keeper.AppendChild", "Keeper.appendChild"]}, {"file": "x/referral/types/types.go", "symbols": ["Info.RegistrationClosed"]}]}
{"id": "C110", "title": "Banishment is carried out when it is due, and on nobody else", "statement": "Banishing an account that is present, inactive, below a referrer, without referrals and with at most dust delegated always succeeds: the account is marked as banished and is in nobody's list of referrals, while everybody's referrer, activity and own amounts and all other entries in lists of referrals stay as they are. Banishing an account that is at the top, active, banished already or has more than dust delegated never succeeds.", "quantifier": "for all executions of the referral module, all accounts and all times", "why_tests_cant": "the step takes the account's delegation out of the sums of ten ancestors and computes their statuses anew, and a panic there is swallowed by the scheduler and leaves the account in place for good", "anchors": [{"file": "x/referral/keeper/keeper.go", "symbols": ["Keeper.Banish"]}, {"file": "x/referral/keeper/hooks.go", "symbols": ["Keeper.PerformBanish"]}, {"file": "x/referral/keeper/bunch_updater.go", "symbols": ["bunchUpdater.update"]}]}
{"id": "C111", "title": "A compression that is due is carried out", "statement": "When the date of compression of an account below a referrer has come, its compression always succeeds: its referrals come below its referrer, whose list of referrals is extended by them in order; the account has no referrals and no date of compression any more; if at most dust is delegated, its banishment is announced for 30 days later; and everybody's activity, presence and own amounts and all other lists of referrals stay as they are. Before the date, or without one, nothing happens.", "quantifier": "for all executions of the referral module, all accounts and all times", "why_tests_cant": "the step changes the sums of ten ancestors by differences of the levels of the account and computes their statuses anew, and a panic there is swallowed by the scheduler and leaves the account in place for good", "anchors": [{"file": "x/referral/keeper/hooks.go", "symbols": ["Keeper.performCompression"]}, {"file": "x/referral/keeper/keeper.go", "symbols": ["Keeper.Compress"]}, {"file": "x/referral/keeper/bunch_updater.go", "symbols": ["bunchUpdater.update"]}]}
{"id": "C112", "title": "A downgrade that is due lowers the status by one step", "statement": "When the date of downgrade of an account has come, the downgrade always succeeds. If the account does not meet the requirements of the next lower status either, it gets exactly this status, and the next downgrade is announced, with a task, for two days later. Otherwise it gets the best status that can be reached from the next lower one, and the date is removed. Nothing else in its record and nobody else's record changes.", "quantifier": "for all states of the referral module in which the numbers are those of a network, all accounts and all times", "why_tests_cant": "nine statuses (with a gap at 8) with requirements on ten levels of the network, of which tests sample a few", "anchors": [{"file": "x/referral/keeper/hooks.go", "symbols": ["Keeper.performDowngrade"]}, {"file": "x/referral/keeper/bunch_updater.go", "symbols": ["bunchUpdater.update"]}]}
