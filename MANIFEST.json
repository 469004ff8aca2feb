{
 "claims": [
  {
   "property": "C01",
   "status": "proved",
   "theorems": [
    "Verif.Util.C01_text_round_trip",
    "Verif.Util.C01_null_round_trip",
    "Verif.Util.C01_negative_denominator_refused",
    "Verif.Util.C01_parsed_denominator_nonneg",
    "Verif.Util.C01_text_injective"
   ],
   "note": "Printing and parsing of fractions, with the base-0 scanning of big.Int."
  },
  {
   "property": "C02",
   "status": "proved",
   "theorems": [
    "Verif.Util.C02_arithmetic_exact",
    "Verif.Util.C02_comparisons_exact",
    "Verif.Util.C02_zero_denominator_panics"
   ],
   "note": "Against exact rational arithmetic."
  },
  {
   "property": "C03",
   "status": "partial",
   "theorems": [
    "Verif.Util.C03_fee_is_largest_splittable_partial",
    "Verif.Util.C03_fee_within_amount_partial",
    "Verif.Util.C03_huge_amount_refused",
    "Verif.Util.C03_fee_can_be_negative"
   ],
   "note": "Proved when rate*amount fits in 64 bits (always for rates in [0,1]); for accepted rates above 1 the claim is false, shown by C03_fee_can_be_negative."
  },
  {
   "property": "C04",
   "status": "proved",
   "theorems": [
    "Verif.Util.C04_split_exact",
    "Verif.Util.C04_charged_fee_splits_exactly",
    "Verif.Util.C04_split_never_creates"
   ],
   "note": "Exact for fees produced by the rule; for arbitrary pool contents the parts round down and at most two units remain."
  },
  {
   "property": "C05",
   "status": "partial",
   "theorems": [
    "Verif.Util.C05_accepted_params_sound_partial",
    "Verif.Util.C05_accepted_rate_can_abort"
   ],
   "note": "True for split ratios; false for the rate: 1/0 is accepted and makes every fee computation panic."
  },
  {
   "property": "C06",
   "status": "partial",
   "theorems": [
    "Verif.Chain.C06_supply_is_sum_partial",
    "Verif.Chain.C06_from_genesis_partial",
    "Verif.Chain.C06_accepted_rate_breaks",
    "Verif.Bank.C06_bank_step",
    "Verif.Bank.C06_genesis",
    "Verif.Bank.C06_genesis_supply_unchecked",
    "Verif.Bank.C06_swallowed_hook_error"
   ],
   "note": "For all interleavings of everything in the code that moves coins (migrations in app/upgrade.go excepted), under: fee rate at most one with a non-zero denominator (validation accepts others, and then the claim fails), balance hooks that succeed, genesis file without an explicit supply."
  },
  {
   "property": "C07",
   "status": "proved",
   "theorems": [
    "Verif.Bank.C07_never_negative",
    "Verif.Bank.C07_never_negative_history",
    "Verif.Bank.C07_overspend_refused",
    "Verif.Bank.C07_overspend_multi_refused"
   ],
   "note": "All bank operations, also when they fail half-way."
  },
  {
   "property": "C08",
   "status": "proved",
   "theorems": [
    "Verif.Bank.C08_transfer_exact",
    "Verif.Bank.C08_transfer_fee_spec"
   ],
   "note": ""
  },
  {
   "property": "C09",
   "status": "proved",
   "theorems": [
    "Verif.Bank.C09_transfer_iff",
    "Verif.Bank.C09_negative_min_send_blocks_all"
   ],
   "note": "With succeeding balance hooks, accepted fee parameters, min_send >= 0 (otherwise no transfer is possible, second theorem)."
  },
  {
   "property": "C10",
   "status": "partial",
   "theorems": [
    "Verif.Bank.C10_burn_exact",
    "Verif.Bank.C10_unaffordable_burn_refused",
    "Verif.Bank.C10_affordable_burn_succeeds",
    "Verif.Bank.C10_module_burn_pretends_success"
   ],
   "note": "Proved for account burns; the module-account clause is false of the code, shown by C10_module_burn_pretends_success."
  },
  {
   "property": "C100",
   "status": "proved",
   "theorems": [
    "Verif.Chain.C100_nobody_else",
    "Verif.Chain.C100_history",
    "Verif.Chain.C100_release_exact",
    "Verif.Profile.C100_charged",
    "Verif.Profile.C100_running"
   ],
   "note": "Money of the bank, delegating and noding modules: C100_nobody_else, for arbitrary hooks. The profile module: C100_charged. The price of a transition (x/referral/keeper/keeper.go:714-722, paid by the signer) is the action `pay`. C100_release_exact needs bank hooks that succeed."
  },
  {
   "property": "C101",
   "status": "partial",
   "theorems": [
    "Verif.Noding.C101_answer",
    "Verif.Noding.C101_worth_partial",
    "Verif.Noding.C101_banned_allowed"
   ],
   "note": "The first sentence and the refusal are proved in full. The second: only for accounts that are not banned for life (the query does not look at the ban, C101_banned_allowed) and with less than 2^63 in their network."
  },
  {
   "property": "C102",
   "status": "partial",
   "theorems": [
    "Verif.Referral.C102_same_network_partial",
    "Verif.Referral.C102_starts_partial",
    "Verif.Referral.C102_dust_violation",
    "Verif.Referral.Order.C102_lists_in_order",
    "Verif.Referral.Order.C102_same_lists_partial",
    "Verif.Referral.Order.C102_order_violation"
   ],
   "note": "Assumed: the run meets the premises of C24 (totals; all ten levels if nobody is compressed in the midst of a line of ten levels, nine levels otherwise) and C92 (own amounts); callbacks succeed;  and no banished account delegates more than the current limit, otherwise it comes back by the restart (C102_dust_violation). C102_starts_partial: the new chain does start if delegations are not negative and fit in 64 bits together and dates are before 2263. The lists of active referrals also have the same order if no active account moved (C102_same_lists_partial); if one did, the new chain has the lists in order and the old one has not (C102_order_violation). Not compared: the date of banishment (the import of a balance may set a missing one, C66) and the status (C80_gap_violation)."
  },
  {
   "property": "C103",
   "status": "partial",
   "theorems": [
    "Verif.Profile.C103_answers",
    "Verif.Profile.C103_card",
    "Verif.Profile.C103_nickname_partial",
    "Verif.Profile.C103_wrong_name"
   ],
   "note": "No crash and card numbers in full. Nicknames: only if no nickname is sent with blanks around it; otherwise an entry that was given up may lead to its former holder (C103_wrong_name)."
  },
  {
   "property": "C104",
   "status": "partial",
   "theorems": [
    "Verif.Enact.Decided.C104_decided_partial",
    "Verif.Enact.Decided.C104_capitals_violation"
   ],
   "note": "For executions in which proposals carry their author's address in lower case; otherwise one account counts twice (C104_capitals_violation). Assumed: operations of other modules do not write these parameters except to clear the planned upgrade (true of the code in /repo except upgrades)."
  },
  {
   "property": "C105",
   "status": "partial",
   "theorems": [
    "Verif.Profile.C105_one_each_partial",
    "Verif.Profile.C105_hoard_violation"
   ],
   "note": "Only if no nickname is sent with blanks around it; otherwise an account keeps all its former nicknames (C105_hoard_violation)."
  },
  {
   "property": "C106",
   "status": "proved",
   "theorems": [
    "Verif.Earning.C106_nothing_left",
    "Verif.Earning.C106_afterwards"
   ],
   "note": "Parameters are in a store of their own and are not touched."
  },
  {
   "property": "C107",
   "status": "partial",
   "theorems": [
    "Verif.Referral.C107_any_sums_partial",
    "Verif.Referral.C107_customer_partial",
    "Verif.Referral.C107_orderly_partial"
   ],
   "note": "C107_any_sums_partial: all executions without self-referrals and with a genesis file in order, if the stored sums of delegations are not negative and fit (everything but the date of compression). C107_customer_partial derives the sums, under the premises of C58 (acceptOk; or records in order and tasks on time). In all cases with listeners that succeed, non-negative own delegations that add up to less than 2^63, and dates that fit in 64 bits of nanoseconds."
  },
  {
   "property": "C108",
   "status": "partial",
   "theorems": [
    "Verif.Referral.C108_lapses_partial",
    "Verif.Referral.C108_in_order_partial"
   ],
   "note": "For executions without self-referrals and with a genesis file in order, if the stored sums of delegations are not negative and fit in 64 bits (C108_in_order_partial derives this under the premises of C58), listeners succeed and dates are before 2263."
  },
  {
   "property": "C109",
   "status": "partial",
   "theorems": [
    "Verif.Referral.C109_accepted_partial",
    "Verif.Referral.C109_refused",
    "Verif.Referral.C109_stranger_violation"
   ],
   "note": "Refusals of registered accounts and of closed referrers are proved for all states. Acceptance: for executions without self-referrals and with a genesis file in order, if the stored sums of delegations are not negative and fit, listeners succeed and dates are before 2263. False for referrers that are not registered: they are taken for accounts at the top (C109_stranger_violation); and for oneself as referrer (C23)."
  },
  {
   "property": "C11",
   "status": "proved",
   "theorems": [
    "Verif.Bank.C11_multi_party_exact",
    "Verif.Bank.C11_unbalanced_refused"
   ],
   "note": ""
  },
  {
   "property": "C110",
   "status": "partial",
   "theorems": [
    "Verif.Referral.C110_dismissed_partial",
    "Verif.Referral.C110_announced_partial",
    "Verif.Referral.C110_spared"
   ],
   "note": "C110_spared is for all states. C110_dismissed_partial: under the premises of C58 (acceptOk), if listeners succeed, own delegations are not negative and add up to less than 2^63, and dates are before 2263."
  },
  {
   "property": "C111",
   "status": "partial",
   "theorems": [
    "Verif.Referral.C111_compressed_partial",
    "Verif.Referral.C111_not_before"
   ],
   "note": "C111_not_before is for all states. C111_compressed_partial: under the premises of C58 (acceptOk), for accounts not in the midst of a line of ten levels or more, if listeners succeed, own delegations are not negative and add up to less than 2^63, and dates are before 2263."
  },
  {
   "property": "C112",
   "status": "partial",
   "theorems": [
    "Verif.Referral.C112_relegated_partial",
    "Verif.Referral.C112_in_order_partial"
   ],
   "note": "For all states in which sums of delegations and teams are not negative and fit and active referrals are stored (Tame), statuses 1 to 9, listeners that succeed and dates before 2263. C112_in_order_partial derives Tame for all executions under the conditions of C58 with own delegations that are not negative and sum up to less than 2^63, and less than 2^64 accounts."
  },
  {
   "property": "C12",
   "status": "proved",
   "theorems": [
    "Verif.Noding.C12",
    "Verif.Noding.C12_company_is_pool"
   ],
   "note": "Hooks succeed, the proposer is a registered validator, proposer and company account are not the pools themselves (the second theorem shows what happens otherwise), pool below 2^63."
  },
  {
   "property": "C13",
   "status": "proved",
   "theorems": [
    "Verif.Schedule.C13_never_early_never_twice",
    "Verif.Schedule.C13_runs_in_first_due_block",
    "Verif.Schedule.C13_waits",
    "Verif.Schedule.C13_request_makes_pending",
    "Verif.Schedule.C13_handler_request_makes_pending",
    "Verif.Schedule.C13_deleted_never_runs",
    "Verif.Schedule.C13_task_for_processed_time_is_lost"
   ],
   "note": "For tasks scheduled for a later time, as the property says. Outside the claim: a task scheduled by a running handler for the very moment being processed is lost (C13_task_for_processed_time_is_lost)."
  },
  {
   "property": "C14",
   "status": "proved",
   "theorems": [
    "Verif.Schedule.C14_execution_order",
    "Verif.Schedule.C14_first_come_first_served"
   ],
   "note": ""
  },
  {
   "property": "C15",
   "status": "proved",
   "theorems": [
    "Verif.Schedule.C15_key_value",
    "Verif.Schedule.C15_keys_order",
    "Verif.Schedule.C15_out_of_range"
   ],
   "note": ""
  },
  {
   "property": "C16",
   "status": "proved",
   "theorems": [
    "Verif.Schedule.C16_all_due_tasks_run",
    "Verif.Schedule.C16_due_tasks_removed",
    "Verif.Schedule.C16_panics_are_contained"
   ],
   "note": ""
  },
  {
   "property": "C17",
   "status": "proved",
   "theorems": [
    "Verif.Schedule.C17_export_import"
   ],
   "note": "Tasks only; the module's parameters are copied verbatim and not part of the model."
  },
  {
   "property": "C18",
   "status": "proved",
   "theorems": [
    "Verif.Delegating.C18_revoking_matches_requests",
    "Verif.Delegating.C18_invariant",
    "Verif.Delegating.C18_failing_hook_breaks",
    "Verif.Delegating.C18_genesis_unchecked",
    "Verif.Chain.C18_gas_fee_breaks"
   ],
   "note": "Over all executions of transactions, blocks, banishments and activity of other modules, with succeeding balance hooks and a fee rate in [0,1]. The last three theorems show what breaks it outside that scope: a failing hook in a block, a wrong genesis file, gas fees paid in coins being revoked."
  },
  {
   "property": "C19",
   "status": "proved",
   "theorems": [
    "Verif.Delegating.C19_delegate_exact",
    "Verif.Delegating.C19_delegate_with_interest"
   ],
   "note": "Interest accrued before the delegation is paid in the same transaction and described separately."
  },
  {
   "property": "C20",
   "status": "proved",
   "theorems": [
    "Verif.Delegating.C20_revoke_exact",
    "Verif.Delegating.C20_waits",
    "Verif.Delegating.C20_released_in_due_block"
   ],
   "note": "With succeeding balance hooks and a fee rate in [0,1]."
  },
  {
   "property": "C21",
   "status": "partial",
   "theorems": [
    "Verif.Delegating.C21_rate_from_table_partial",
    "Verif.Delegating.C21_every_amount_has_a_row",
    "Verif.Delegating.C21_zero_denominator_accepted"
   ],
   "note": "True when no percentage has a zero denominator; such tables are accepted and make the rate computation panic."
  },
  {
   "property": "C22",
   "status": "partial",
   "theorems": [
    "Verif.Delegating.C22_daily_accrual_exact_partial",
    "Verif.Delegating.C22_part_day_accrual_exact_partial",
    "Verif.Chain.C06_accepted_rate_breaks"
   ],
   "note": "Fails with an accepted fee rate above one: the supply grows, the fee makes the step panic and nothing is credited. With succeeding balance hooks, a fee rate in [0,1] and beneficiary ratios that are non-negative and sum to at most 30 (as produced by the referral module)."
  },
  {
   "property": "C23",
   "status": "partial",
   "theorems": [
    "Verif.Referral.C23_forest_partial",
    "Verif.Referral.C23_self_referral_violation"
   ],
   "note": "False as stated: an account can be created with itself as referrer. Holds for all executions in which nobody is registered as their own referrer and the genesis file is a tree, at the level of stored address texts."
  },
  {
   "property": "C24",
   "status": "partial",
   "theorems": [
    "Verif.Referral.C24_totals_partial",
    "Verif.Referral.C24_own_amounts",
    "Verif.Referral.C24_orderly_partial",
    "Verif.Referral.C24_level_ten_violation",
    "Verif.Referral.C24_banished_parent_violation"
   ],
   "note": "False as stated: Compress forgets level ten, and a banished account with referrals that comes back elsewhere is counted wrongly. Holds up to level nine, and level ten if nobody is compressed in the midst of a line of ten levels or more (`Shallow`; never in a network of ten generations, `shallow_of_depth`), when nobody with referrals is banished; C24_orderly_partial proves the latter from genesis records in order and tasks that run on time (C74)."
  },
  {
   "property": "C25",
   "status": "proved",
   "theorems": [
    "Verif.Referral.C25_fees",
    "Verif.Referral.C25_fees_exist",
    "Verif.Referral.C25_ratios_ok"
   ],
   "note": "For all trees, statuses, validators and accounts; recipients are distinct stored texts."
  },
  {
   "property": "C26",
   "status": "partial",
   "theorems": [
    "Verif.Referral.C26_refused_partial",
    "Verif.Referral.C26_moved_partial",
    "Verif.Referral.C26_walk_ends",
    "Verif.Referral.C26_capital_letters_violation"
   ],
   "note": "Holds for addresses in one spelling, also when the structure changes between request and affirmation. False for a destination spelled in capital letters: an account becomes its own referrer."
  },
  {
   "property": "C27",
   "status": "partial",
   "theorems": [
    "Verif.Referral.C27_second_request_partial",
    "Verif.Referral.C27_resolver",
    "Verif.Referral.C27_drop",
    "Verif.Referral.C27_second_request_violation"
   ],
   "note": "Holds per stored text; a second request of the same account is accepted when its address is spelled in capital letters."
  },
  {
   "property": "C28",
   "status": "partial",
   "theorems": [
    "Verif.Noding.C28_partial",
    "Verif.Noding.C28_key_passed_on",
    "Verif.Noding.C28_chosen_but_absent"
   ],
   "note": "Holds when every consensus key is used by one account only. The code lets a key pass from one account to another: the update list may then contain a key twice (rejected by the engine) or a chosen validator may be missing in the engine."
  },
  {
   "property": "C29",
   "status": "partial",
   "theorems": [
    "Verif.Noding.C29_top",
    "Verif.Noding.C29_lucky_partial",
    "Verif.Noding.C29_too_many_lucky"
   ],
   "note": "The part about top validators holds for all executions. The limit on lucky ones holds as long as no queued validator's stake falls below the criteria; otherwise two records may carry the same queue number and both are chosen."
  },
  {
   "property": "C30",
   "status": "proved",
   "theorems": [
    "Verif.Noding.C30"
   ],
   "note": ""
  },
  {
   "property": "C31",
   "status": "proved",
   "theorems": [
    "Verif.Noding.C31",
    "Verif.Noding.C31_second_infraction"
   ],
   "note": ""
  },
  {
   "property": "C32",
   "status": "proved",
   "theorems": [
    "Verif.Noding.C32_stays",
    "Verif.Noding.C32_early_refused",
    "Verif.Noding.C32_release",
    "Verif.Noding.C32_jailing"
   ],
   "note": ""
  },
  {
   "property": "C33",
   "status": "partial",
   "theorems": [
    "Verif.Noding.C33_status",
    "Verif.Noding.C33_staff",
    "Verif.Noding.C33_release",
    "Verif.Noding.C33_stake_partial",
    "Verif.Noding.C33_stake_ignored"
   ],
   "note": "Holds for status changes, leaving the staff and release from jail; fails for stake changes, where OnStakeChanged returns before saving the record."
  },
  {
   "property": "C34",
   "status": "partial",
   "theorems": [
    "Verif.Noding.C34_partial",
    "Verif.Noding.C34_order_partial",
    "Verif.Noding.C34_entry_lost"
   ],
   "note": "Holds as long as no queued validator's stake falls below the criteria; in that case OnStakeChanged deletes the queue entry but not the number in the record."
  },
  {
   "property": "C35",
   "status": "partial",
   "theorems": [
    "Verif.Voting.C35_one_vote_each_partial",
    "Verif.Voting.C35_only_governors",
    "Verif.Voting.C35_one_at_a_time",
    "Verif.Voting.C35_upper_case_author_votes_twice"
   ],
   "note": "Holds when proposals spell their author's address in lower case. The author's text is stored as sent, so an author writing the address in upper case can vote a second time."
  },
  {
   "property": "C36",
   "status": "partial",
   "theorems": [
    "Verif.Voting.C36_open_proposal_partial",
    "Verif.Voting.C36_deadline",
    "Verif.Voting.C36_no_proposal_no_effect",
    "Verif.Voting.C36_upper_case_author_enacts_alone",
    "Verif.Voting.C36_history_overwritten"
   ],
   "note": "Holds for canonical authors and a government without duplicates. Fails with an upper-case author (one of two governors decides alone); and the history record is overwritten when two proposals end in the same block."
  },
  {
   "property": "C37",
   "status": "partial",
   "theorems": [
    "Verif.Voting.C37_no_duplicates_partial",
    "Verif.Voting.C37_member_admitted_twice",
    "Verif.Voting.C37_duplicate_blocks_forever",
    "Verif.Voting.C37_example_stuck"
   ],
   "note": "The claim is false: an enacted admission of a present member enters it twice, after which no proposal can be enacted ever again (with canonical authors). The partial theorem covers all other steps."
  },
  {
   "property": "C38",
   "status": "partial",
   "theorems": [
    "Verif.Voting.C38_tallies_partial",
    "Verif.Voting.C38_end_of_poll",
    "Verif.Voting.C38_upper_case_answers_twice"
   ],
   "note": "Tallies hold when respondents spell their address in lower case; otherwise one account can answer twice. The end of the poll (decision, clearing) holds for all executions with fewer than 2^62 steps."
  },
  {
   "property": "C39",
   "status": "partial",
   "theorems": [
    "Verif.Profile.C39_unique",
    "Verif.Profile.C39_nicknames_partial",
    "Verif.Profile.C39_lookup_fails",
    "Verif.Profile.C39_stale_entry"
   ],
   "note": "Uniqueness holds for all executions. The look-up holds for the nickname without surrounding blanks; a nickname stored with blanks (possible through the message that creates an account) is not found under its own spelling, and remains taken after it is given up."
  },
  {
   "property": "C40",
   "status": "proved",
   "theorems": [
    "Verif.Profile.C40_cards"
   ],
   "note": "For all executions from a chain without profiles."
  },
  {
   "property": "C41",
   "status": "proved",
   "theorems": [
    "Verif.Profile.C41_paid_month"
   ],
   "note": "The quoted total is specified separately, in rational arithmetic with the 64-bit wrap-around of the storage part made explicit (see C47 for its consequences)."
  },
  {
   "property": "C42",
   "status": "partial",
   "theorems": [
    "Verif.Profile.C42_unpaid_partial",
    "Verif.Profile.C42_free_subscription"
   ],
   "note": "False as stated: the message that creates an account may carry a subscription end. Holds for all executions without such a message."
  },
  {
   "property": "C43",
   "status": "partial",
   "theorems": [
    "Verif.Profile.C43_reset_partial",
    "Verif.Profile.monthly_reset",
    "Verif.Profile.C43_wraps"
   ],
   "note": "The upper bound fails by wrap-around when more traffic was used than base allowance plus limit; the rest holds always."
  },
  {
   "property": "C44",
   "status": "proved",
   "theorems": [
    "Verif.Profile.C44_give_up"
   ],
   "note": ""
  },
  {
   "property": "C45",
   "status": "proved",
   "theorems": [
    "Verif.Earning.C45_answer",
    "Verif.Earning.C45_check_pure",
    "Verif.Earning.C45_forgotten",
    "Verif.Earning.C45_example"
   ],
   "note": "Against the history of reports, for every execution (reports, checks, time passing, signer changes) from every genesis."
  },
  {
   "property": "C46",
   "status": "partial",
   "theorems": [
    "Verif.Earning.C46_anyone_reports",
    "Verif.Earning.C46_self_report",
    "Verif.Earning.C46_named_only_partial",
    "Verif.Earning.C46_removed_stays",
    "Verif.Earning.removeSigner_spec"
   ],
   "note": "False: the list of signers is never consulted, any sender's report is applied (proved for all senders, with a witness). What holds: a report changes the entries of the accounts it names only."
  },
  {
   "property": "C47",
   "status": "partial",
   "theorems": [
    "Verif.Profile.C47_full_price_partial",
    "Verif.Profile.C47_cheap_month"
   ],
   "note": "False as stated: the storage bill is multiplied in 64 bits and wraps around for huge requests. Holds when the bill fits and the storage is at least the base allowance."
  },
  {
   "property": "C48",
   "status": "partial",
   "theorems": [
    "Verif.Profile.C48_renewal_partial",
    "Verif.Profile.C48_no_renewal"
   ],
   "note": "False for accounts created with a subscription in the message; holds for all executions without such messages and with non-decreasing block times."
  },
  {
   "property": "C49",
   "status": "proved",
   "theorems": [
    "Verif.Earning.C49_round_trip",
    "Verif.Earning.signers_ne"
   ],
   "note": "Round trip is the identity; the only hypothesis, a non-empty signer list, holds in every execution."
  },
  {
   "property": "C50",
   "status": "partial",
   "theorems": [
    "Verif.Earning.C50_pages_partial",
    "Verif.Earning.C50_wraps",
    "Verif.Earning.C50_example"
   ],
   "note": "Holds while limit*page stays below 2^31; beyond that the 32-bit products wrap and page 5 of size 2^30 repeats page 1 (witness)."
  },
  {
   "property": "C51",
   "status": "partial",
   "theorems": [
    "Verif.Referral.C51_open_partial",
    "Verif.Referral.C51_due_partial",
    "Verif.Referral.C51_closes",
    "Verif.Referral.C51_planned_partial",
    "Verif.Referral.C51_early_timeout_violation",
    "Verif.Referral.C51_stale_timeout_violation"
   ],
   "note": "False: the timeout of a declined request is not removed and drops the next request early. Holds, for all sequences of blocks and operations, if no request of the account was accepted within the last day: the request stays pending until it is resolved or a full day has passed, and the first block after the day takes its timeout off the schedule. Every accepted request gets a timeout one day later."
  },
  {
   "property": "C52",
   "status": "proved",
   "theorems": [
    "Verif.Delegating.C52_full_day",
    "Verif.Delegating.C52_part_day",
    "Verif.Delegating.C52_next_day",
    "Verif.Delegating.C52_nothing_missed",
    "Verif.Delegating.C52_paid_daily",
    "Verif.Delegating.C52_paid_before_revocation",
    "Verif.Delegating.C52_paid_before_delegation"
   ],
   "note": "With succeeding balance hooks and a fee rate in [0,1] (as for C22). C52_full_day and C52_part_day also cover records with a missed part, which only a migration writes."
  },
  {
   "property": "C53",
   "status": "proved",
   "theorems": [
    "Verif.Delegating.C53_query",
    "Verif.Delegating.C53_shown_is_paid"
   ],
   "note": "C53_query also covers records with a missed part; then the total may differ from the payment by rounding, so C53_shown_is_paid is about chains started from genesis."
  },
  {
   "property": "C54",
   "status": "proved",
   "theorems": [
    "Verif.Chain.C54_export_import",
    "Verif.Chain.C54_sound_history",
    "Verif.Chain.C54_missed_part_is_lost"
   ],
   "note": "C54_export_import needs that an empty recorded supply means empty balances, C54_sound_history discharges it under the conditions of C06. Limit: the missed part of a day that a chain upgrade writes is not exported."
  },
  {
   "property": "C55",
   "status": "partial",
   "theorems": [
    "Verif.Voting.C55_export_import_partial",
    "Verif.Voting.C55_lost_status"
   ],
   "note": "Holds when everybody who answered the open poll still meets its requirement at import. False otherwise: the import repeats the answers and panics."
  },
  {
   "property": "C56",
   "status": "proved",
   "theorems": [
    "Verif.Profile.C56_export_import",
    "Verif.Profile.C56_identities",
    "Verif.Profile.C56_missing_account"
   ],
   "note": "Same account numbers assumed (the auth module of the SDK renumbers accounts in order); the calls into the referral module succeed."
  },
  {
   "property": "C57",
   "status": "partial",
   "theorems": [
    "Verif.Referral.C57_active_lists_partial",
    "Verif.Referral.Order.C57_ordered_partial",
    "Verif.Referral.C57_order_violation"
   ],
   "note": "Who is in the lists: proved for executions in which nobody registers as their own referrer and the genesis file is in order. The order: proved for executions in which no account moves while it is active; it is false otherwise, as such an account is put at the end of the list."
  },
  {
   "property": "C58",
   "status": "partial",
   "theorems": [
    "Verif.Referral.C58_accepted_partial",
    "Verif.Referral.C58_orderly_partial",
    "Verif.Referral.C58_banished_parent_violation",
    "Verif.Referral.C58_level_ten_violation"
   ],
   "note": "Proved for executions in which nobody is compressed in the midst of a line of ten levels or more and nobody with referrals is banished; C58_orderly_partial proves the latter from genesis records in order and tasks that run on time (C74). False otherwise: wrong totals of an ancestor become negative when a delegation is taken back, and the change is refused."
  },
  {
   "property": "C59",
   "status": "partial",
   "theorems": [
    "Verif.Profile.C59_storage",
    "Verif.Profile.C59_messenger",
    "Verif.Profile.C59_traffic",
    "Verif.Profile.C59_prolong",
    "Verif.Profile.C59_give_up",
    "Verif.Profile.C59_end",
    "Verif.Profile.C59_fee_for_nothing"
   ],
   "note": "Everything is proved but the last clause: C59_fee_for_nothing shows an automatic payment that fails after its transaction fee was taken, and the fee is not returned."
  },
  {
   "property": "C60",
   "status": "proved",
   "theorems": [
    "Verif.Profile.C60_profiles",
    "Verif.Profile.C60_rate",
    "Verif.Profile.C60_signer_sets_rate",
    "Verif.Profile.C60_update",
    "Verif.Profile.C60_reports"
   ],
   "note": "Signatures themselves are checked by the SDK and are not modelled: an operation carries the address it was signed by. The theorem about the signer assumes that the stored parameters are valid; valid ones stay valid under every operation (valid_params)."
  },
  {
   "property": "C61",
   "status": "partial",
   "theorems": [
    "Verif.Profile.C61_scheduled_partial",
    "Verif.Profile.C61_free_storage",
    "Verif.Profile.C61_bought_and_lost"
   ],
   "note": "Proved for executions in which no account is created with messenger storage and no storage that ended is prolonged by its owner. Both exclusions are needed: C61_free_storage shows unpaid storage without a task, C61_bought_and_lost a prolongation that leaves a task in the past."
  },
  {
   "property": "C62",
   "status": "proved",
   "theorems": [
    "Verif.Profile.C62_messages",
    "Verif.Profile.C62_ends",
    "Verif.Profile.C62_renewals",
    "Verif.Profile.C62_silent"
   ],
   "note": "What the referral module does when told is the subject of C57 and others."
  },
  {
   "property": "C63",
   "status": "proved",
   "theorems": [
    "Verif.Referral.C63_requirements",
    "Verif.Referral.C63_check",
    "Verif.Referral.C63_downgrade"
   ],
   "note": "For totals that fit into 64 bits and existing active referrals (`Tame`); outside of this the code panics or wraps around."
  },
  {
   "property": "C64",
   "status": "partial",
   "theorems": [
    "Verif.Referral.C64_status_earned_partial",
    "Verif.Referral.C64_from_start_partial",
    "Verif.Referral.C64_siblings_violation",
    "Verif.Referral.C64_teams_violation"
   ],
   "note": "Proved for the criteria of coins and of referrals with enough active referrals (which is all that statuses 2 and 3 demand), for executions that move no active account between referrals of the same account. False otherwise: C64_siblings_violation, and C64_teams_violation for the criterion of teams."
  },
  {
   "property": "C65",
   "status": "partial",
   "theorems": [
    "Verif.Referral.C65_dates_have_tasks_partial",
    "Verif.Referral.C65_dates_are_kept_partial",
    "Verif.Referral.C65_refused_withdrawal_violation"
   ],
   "note": "Proved for executions without one kind of step: a change of balance that fails halfway, is not rolled back, and changes the delegation of an inactive account awaiting banishment to more than dust. For this step the claim is false in the model (C65_refused_withdrawal_violation). In the code such changes come from messages, whose transactions are rolled back, as far as we could see by reading; the callers are not part of this model."
  },
  {
   "property": "C66",
   "status": "proved",
   "theorems": [
    "Verif.Referral.C66_expire",
    "Verif.Referral.C66_subscribe",
    "Verif.Referral.C66_register",
    "Verif.Referral.C66_compress",
    "Verif.Referral.C66_not_early",
    "Verif.Referral.C66_banish",
    "Verif.Referral.C66_balance"
   ],
   "note": "For operations that succeed. PerformBanish itself has no check of the date; that tasks exist at the dates is C65."
  },
  {
   "property": "C67",
   "status": "proved",
   "theorems": [
    "Verif.Referral.C67_commission"
   ],
   "note": "The list exists unless it cannot be read who is a validator (C25_fees_exist)."
  },
  {
   "property": "C68",
   "status": "proved",
   "theorems": [
    "Verif.Voting.C68_answer",
    "Verif.Voting.C68_start"
   ],
   "note": "Quorums with denominator zero cannot be parsed from text (C01) and are left out in C68_start. That one account may answer twice by a second spelling of its address is C38_upper_case_answers_twice."
  },
  {
   "property": "C69",
   "status": "proved",
   "theorems": [
    "Verif.Noding.C69_qualified",
    "Verif.Noding.C69_switch_on",
    "Verif.Noding.C69_switched_on",
    "Verif.Noding.C69_active",
    "Verif.Noding.indexed_runs"
   ],
   "note": "C69_switch_on assumes that the index of keys points to records and that whoever is on has a key; indexed_runs proves this for all executions from a store with an empty index. Keys nobody active uses: as far as the index tells (C28_chosen_but_absent shows how two accounts can get the same key)."
  },
  {
   "property": "C70",
   "status": "proved",
   "theorems": [
    "Verif.Noding.C70_score",
    "Verif.Noding.C70_renewed",
    "Verif.Noding.C70_amnesty"
   ],
   "note": "int64 arithmetic is modelled without overflow; the logarithm is an arbitrary function. An active account that no longer qualifies keeps its old score when its stake changes (C33)."
  },
  {
   "property": "C71",
   "status": "proved",
   "theorems": [
    "Verif.Noding.C71_params",
    "Verif.Noding.C71_set_params",
    "Verif.Noding.C71_genesis"
   ],
   "note": "Decoding of addresses and keys is left out: a key is a number, zero standing for the empty string."
  },
  {
   "property": "C72",
   "status": "partial",
   "theorems": [
    "Verif.Noding.C72_file",
    "Verif.Noding.C72_restart_partial",
    "Verif.Noding.C72_unqualified_violation",
    "Verif.Noding.C72_shared_key_violation",
    "Verif.Noding.C72_evidence_lost_violation"
   ],
   "note": "C72_file: the file is accepted exactly when somebody is active. C72_restart_partial assumes known stakes, qualified active validators and different keys; without the latter two the start fails although the file is accepted (C72_unqualified_violation, C72_shared_key_violation). Keys of inactive validators are never restored (C72_evidence_lost_violation)."
  },
  {
   "property": "C73",
   "status": "proved",
   "theorems": [
    "Verif.Profile.C73_storage",
    "Verif.Profile.C73_traffic",
    "Verif.Profile.C73_messenger",
    "Verif.Profile.C73_prolong",
    "Verif.Profile.C73_give_up",
    "Verif.Profile.C73_give_messenger_up",
    "Verif.Profile.C73_reports",
    "Verif.Profile.C73_rate",
    "Verif.Profile.C73_update",
    "Verif.Profile.C73_update_price",
    "Verif.Profile.C73_create",
    "Verif.Profile.C73_created",
    "Verif.Profile.C73_month"
   ],
   "note": "Assumed: hooks of the bank do not refuse (C58), balances are not negative (C07), fee parameters are accepted ones with a rate of at most one (C05), bills fit into int64, the payer is not the collector of transaction fees. The referral module is an arbitrary answer. For the token rate the stored parameters are assumed valid, which every operation preserves (valid_params)."
  },
  {
   "property": "C74",
   "status": "partial",
   "theorems": [
    "Verif.Referral.C74_out_of_business_partial",
    "Verif.Referral.C74_banished_without_referrals_partial",
    "Verif.Referral.C74_genesis_violation"
   ],
   "note": "Assumed: every record after genesis satisfies the property; nobody registers with themself as referrer (C23); no compression is overdue when a balance changes and banishment runs only for accounts with a date (C65 and tasks running at the start of the block; the hook itself checks neither). A genesis file that leaves an inactive account with referrals without date of compression breaks the property (C74_genesis_violation)."
  },
  {
   "property": "C75",
   "status": "partial",
   "theorems": [
    "Verif.Referral.C75_all_with_status_partial",
    "Verif.Referral.C75_refused",
    "Verif.Referral.C75_genesis_violation"
   ],
   "note": "Assumed besides the conditions of C74: the body of tasks and hooks succeeds (the index is written directly and is not rolled back with the collected records). Banish, ComeBack and the return to activity set the status without touching the index; this is harmless because accounts out of business have low statuses (C74), and C75_genesis_violation shows the stale index when they have not. The order of the answer is not modelled."
  },
  {
   "property": "C76",
   "status": "partial",
   "theorems": [
    "Verif.Enact.C76_whole",
    "Verif.Enact.C76_sets",
    "Verif.Enact.C76_adds",
    "Verif.Enact.C76_strikes_partial",
    "Verif.Enact.C76_amnesty",
    "Verif.Enact.C76_staff_add",
    "Verif.Enact.C76_staff_remove",
    "Verif.Enact.C76_all_or_nothing",
    "Verif.Enact.C76_deprecated",
    "Verif.Enact.C76_acceptable",
    "Verif.Enact.C76_takes_effect_partial",
    "Verif.Enact.C76_add_succeeds",
    "Verif.Enact.C76_strike_succeeds_partial",
    "Verif.Enact.C76_no_repetitions_partial",
    "Verif.Enact.C76_value_violation",
    "Verif.Enact.C76_max_fee_violation",
    "Verif.Enact.C76_deprecated_violation",
    "Verif.Enact.C76_last_member_violation",
    "Verif.Enact.C76_strike_violation",
    "Verif.Enact.C76_empty_government_violation",
    "Verif.Enact.C76_last_vote_lost"
   ],
   "note": "Effects, frame, all-or-nothing and preservation of acceptable parameters are proved for all states. The last sentence is false: prices of zero, a minimal delegation below one, negative dust, no validators and the removal of the last member of a list pass the checks of the message and make the enactment panic, so that the completing vote always fails (C76_value_violation, C76_last_member_violation, C76_last_vote_lost); a negative bound of fees and deprecated types are only logged; C76_takes_effect_partial says exactly when a value takes effect. Striking off needs a list without repetitions; the government and the earning signers can have them (C76_strike_violation). ScheduleUpgrade of the SDK is an assumption; company accounts of the referral module, which no proposal changes, are left out."
  },
  {
   "property": "C77",
   "status": "partial",
   "theorems": [
    "Verif.Referral.C77_round_trip_partial",
    "Verif.Referral.C77_again_partial",
    "Verif.Referral.C77_executions_partial",
    "Verif.Referral.C77_export_ends",
    "Verif.Referral.C77_stranded_violation",
    "Verif.Referral.C77_transition_violation",
    "Verif.Referral.C77_status_not_exported"
   ],
   "note": "Assumed: the structure is consistent and no banished account has referrals (both follow for executions from a genesis file in order, C23 and C74), callbacks succeed, and nothing was imported before, in particular no balances (the order of modules in app.go). Accounts below a banished one are lost (C77_stranded_violation), and so is the wish to move of a banished account (C77_transition_violation). Statuses that are not about to be lowered are not in the file; the import of the profiles recomputes them afterwards (C77_status_not_exported). Activity flags and amounts come with the later imports of profiles and bank and are not compared. Parameters are copied and left out."
  },
  {
   "property": "C78",
   "status": "partial",
   "theorems": [
    "Verif.Delegating.C78_revoke_partial",
    "Verif.Delegating.C78_delegate_partial",
    "Verif.Delegating.C78_stuck",
    "Verif.Delegating.C78_no_profile_violation"
   ],
   "note": "Circumstances (`Ready`): balance hooks succeed, no zero denominators in the table (C21), amounts and the day's interest fit in 64 bits, other modules answer, the account is not its own beneficiary, and the running day has not ended. False for accounts without a profile: their first delegation is accepted, afterwards every request panics."
  },
  {
   "property": "C79",
   "status": "partial",
   "theorems": [
    "Verif.Upgrade.C79_money",
    "Verif.Upgrade.C79_requests",
    "Verif.Upgrade.C79_totals",
    "Verif.Upgrade.C79_interest_partial",
    "Verif.Upgrade.C79_goes_through",
    "Verif.Upgrade.C79_collectors_partial",
    "Verif.Upgrade.C79_two_spellings_violation",
    "Verif.Upgrade.C79_collectors_violation"
   ],
   "note": "Money, requests and totals are proved for all states with the invariants of C18 (`Good`), which hold again afterwards. The accrual is proved for accounts with one unbanished record; an account recorded under two spellings is treated twice and gets interest for time in which its coins were not delegated (C79_two_spellings_violation). That the upgrade does not panic needs referral records that agree with the balances (C24), amounts below 2^63 and times within the schedule's range. The collectors and the company must be four different accounts (C79_collectors_violation)."
  },
  {
   "property": "C80",
   "status": "partial",
   "theorems": [
    "Verif.Referral.C80_refresh",
    "Verif.Referral.C80_goes_through",
    "Verif.Referral.C80_in_order_partial",
    "Verif.Referral.C80_from_then_on_partial",
    "Verif.Referral.C80_index",
    "Verif.Referral.C80_gap_violation"
   ],
   "note": "The refresh itself is proved for all stores whose numbers are not negative and fit in 64 bits (`Tame`, as in C63; C24 says when); C80_in_order_partial derives this for executions under the conditions of C58. From then on: as C64, without its assumption on the genesis file; the criterion of teams and moves between referrals of the same account are missing there. The last sentence is false: the demands of higher statuses do not imply those of lower ones, so that an account with a deserved status 3 that does not deserve status 2 starts again at 1 (C80_gap_violation)."
  },
  {
   "property": "C81",
   "status": "partial",
   "theorems": [
    "Verif.Voting.C81_current",
    "Verif.Voting.C81_last_of_block",
    "Verif.Voting.C81_archive_partial",
    "Verif.Voting.C81_poll_archive",
    "Verif.Voting.C81_poll",
    "Verif.Voting.C81_pages_partial",
    "Verif.Voting.C81_export_reads_all",
    "Verif.Voting.C81_poll_pages",
    "Verif.Voting.C81_poll_pages_all",
    "Verif.Voting.C81_same_block_violation",
    "Verif.Voting.C81_pages_wrap"
   ],
   "note": "False for proposals ended in the same block: the later record replaces the earlier one (C81_same_block_violation); C81_last_of_block says exactly what is stored in general, C81_archive_partial that nothing is missing otherwise. Polls are complete, given that time does not run backwards, a poll lasts at least a second and there are at most 2^62 steps. Paging through proposals is right as long as limit times page stays below 2^31 (C81_pages_wrap); paging through polls for all int32."
  },
  {
   "property": "C82",
   "status": "partial",
   "theorems": [
    "Verif.Deactivate.C82_deactivated",
    "Verif.Deactivate.C82_planned",
    "Verif.Deactivate.C82_runs",
    "Verif.Deactivate.C82_stops",
    "Verif.Deactivate.C82_from_then_on",
    "Verif.Deactivate.C82_reset_twice",
    "Verif.Deactivate.C82_totals_violation",
    "Verif.Deactivate.C82_counted_twice",
    "Verif.Deactivate.C82_charged_for_nothing"
   ],
   "note": "Everything but the last sentence is proved for all states. That is false: the level sums stay right, but every deactivated account goes on counting itself as active (C82_totals_violation: the numbers are right afterwards exactly when nobody lost their activity), twice after the next subscription (C82_counted_twice); and the renewal task left in the schedule charges a deactivated account with automatic payment and gives it nothing (C82_charged_for_nothing)."
  },
  {
   "property": "C83",
   "status": "partial",
   "theorems": [
    "Verif.Referral.C83_coins_partial",
    "Verif.Referral.C83_orderly_partial",
    "Verif.Referral.C83_no_limit_partial",
    "Verif.Referral.C83_status",
    "Verif.Referral.C83_status_in_order_partial",
    "Verif.Referral.C83_transition",
    "Verif.Referral.C83_request",
    "Verif.Referral.C83_unknown",
    "Verif.Referral.C83_depth_zero_violation",
    "Verif.Referral.C83_unknown_destination_violation",
    "Verif.Referral.C83_unknown_subject_violation"
   ],
   "note": "Statuses and transitions are proved for all states and all reachable structures. Coins: for executions that keep the totals exact (`totalsOk`, see C24; C83_orderly_partial from C74) and depths from one; for depth zero only the total is right, the delegated coins are those of the account alone (C83_depth_zero_violation). False: transitions to unregistered accounts and of unregistered accounts are accepted."
  },
  {
   "property": "C84",
   "status": "partial",
   "theorems": [
    "Verif.Referral.C84_approved_partial",
    "Verif.Referral.C84_orderly_partial",
    "Verif.Referral.C84_banished_violation",
    "Verif.Referral.C84_top_violation"
   ],
   "note": "For executions in which nobody is compressed in the midst of a line of ten levels or more and nobody with referrals is banished (`acceptOk`, as in C58; C84_orderly_partial proves the latter from C74), callbacks of other modules that succeed, own delegations that are not negative and add up to less than 2^63, and subjects that are not banished. False for banished subjects, whose approval crashes (C84_banished_violation), and the last sentence for accounts at the top (C84_top_violation)."
  },
  {
   "property": "C85",
   "status": "partial",
   "theorems": [
    "Verif.Noding.C85_partial",
    "Verif.Noding.C85_queries",
    "Verif.Noding.C85_proposer_violation",
    "Verif.Noding.C85_key_violation"
   ],
   "note": "For executions in which every key is used by one account only (`KeysOwned`, as in C28), votes of one engine set without repetitions, and a store at the start in order. Nobody proves possession of a key: switching on with the key of a jailed account takes over its blocks, votes and infractions (C85_key_violation). The sentence on the query for the proposer is false: it names the proposer of the block after, and nothing without a height (C85_proposer_violation); C85_partial says what it answers. The queue: for executions without the defect of C34 (`Calm`). The payment to the proposer is C12."
  },
  {
   "property": "C86",
   "status": "partial",
   "theorems": [
    "Verif.Referral.C86_announced",
    "Verif.Referral.C86_safe",
    "Verif.Referral.C86_goes_through",
    "Verif.Referral.C86_in_order_partial",
    "Verif.Referral.C86_root_violation"
   ],
   "note": "For stores whose numbers are not negative and fit in 64 bits (`Tame`, as in C63 and C80); C86_in_order_partial derives this for executions under the conditions of C58. Going through: if the callbacks of other modules succeed and the dates are before 2263. False for accounts without referrer: they get a date and a task as well, but cannot be banished, and the date stays (C86_root_violation)."
  },
  {
   "property": "C87",
   "status": "partial",
   "theorems": [
    "Verif.Referral.C87_dates",
    "Verif.Referral.C87_tasks",
    "Verif.Referral.C87_unknown",
    "Verif.Referral.C87_still_late",
    "Verif.Referral.C87_relocated",
    "Verif.Referral.C87_rescued",
    "Verif.Referral.C87_rescued_in_the_end",
    "Verif.Referral.C87_late_violation",
    "Verif.Referral.C87_lost_violation"
   ],
   "note": "The records are proved for all states. That downgrades happen on the new date is false for every schedule: the tasks stay under their old keys, so every block runs the same tasks as without the upgrade (C87_still_late, C87_unknown, C87_late_violation). 2.4.4 runs overdue ones (C87_rescued, for a day of at least 5760 ns), but replaces whatever was scheduled for the moments it chooses (C87_lost_violation; C87_relocated says exactly what each moment holds)."
  },
  {
   "property": "C88",
   "status": "partial",
   "theorems": [
    "Verif.Referral.C88_recounted",
    "Verif.Referral.C88_goes_through",
    "Verif.Referral.C88_in_order_partial",
    "Verif.Referral.C88_repeated_violation"
   ],
   "note": "For stores whose numbers are not negative and fit in 64 bits (`Tame`, as in C63 and C80) and active referrals that are known; C88_in_order_partial derives this for executions under the conditions of C58, where the upgrade changes nothing. Going through: if the callbacks of other modules succeed and dates are before 2263. False for 'each once': the code compares sets, so that a list that names a referral twice is taken for right (C88_repeated_violation)."
  },
  {
   "property": "C89",
   "status": "partial",
   "theorems": [
    "Verif.Referral.C89_moved",
    "Verif.Referral.C89_nobody_left",
    "Verif.Referral.C89_goes_through",
    "Verif.Referral.C89_lists_partial",
    "Verif.Referral.C89_stale_violation",
    "Verif.Referral.C89_sums_partial",
    "Verif.Referral.C89_active_violation"
   ],
   "note": "New referrers are proved for all stores in which banished accounts have referrers; going through for stores in which referrers are known and nobody is above themselves. Lists: only if nobody moves to an account that is moved later (`InOrder`). Otherwise the record of the start is written over the new one: the mover is lost from the list, and sums of money become wrong, even negative (C89_stale_violation). Sums of money stay right if accounts to be moved have smaller keys than those to be moved below them (`TopDown`, which implies `InOrder`). Numbers of active accounts below are not moved and become wrong (C89_active_violation)."
  },
  {
   "property": "C90",
   "status": "partial",
   "theorems": [
    "Verif.Referral.C90_readmitted",
    "Verif.Referral.C90_goes_through",
    "Verif.Referral.C90_lists",
    "Verif.Referral.C90_top_violation",
    "Verif.Referral.C90_lost_violation",
    "Verif.Referral.C90_sums_partial",
    "Verif.Referral.C90_version_partial",
    "Verif.Referral.C90_twice_violation"
   ],
   "note": "Readmission and lists are proved for all stores; going through if referrers are known, nobody is above themselves, balances fit in 64 bits and the records of those readmitted show their delegation. The new referrer is the former one if open, otherwise nobody: a shadowed variable makes the loop stop after one step (C90_top_violation). In that case an account without money on record makes the upgrade panic, and it is dropped for everybody without an error (C90_lost_violation). Sums of money stay right if nobody present is below those that return (C90_sums_partial; otherwise their money is counted twice, C90_twice_violation), which holds in version 2.3.2, where the transfer of C89 comes first (C90_version_partial)."
  },
  {
   "property": "C91",
   "status": "partial",
   "theorems": [
    "Verif.Event.C91_shown",
    "Verif.Event.C91_texts_partial",
    "Verif.Event.C91_fields",
    "Verif.Event.C91_special_violation"
   ],
   "note": "C91_shown says for every text what is shown. It is the text itself if it has no control characters, comparison signs, ampersands or Unicode line separators; these are shown by their JSON codes, so that different texts can look alike (C91_special_violation). How JSON escapes characters is an outside fact."
  },
  {
   "property": "C92",
   "status": "partial",
   "theorems": [
    "Verif.Referral.C92_own_partial",
    "Verif.Referral.C92_levels_partial",
    "Verif.Referral.C92_sound_partial",
    "Verif.Referral.C92_known_partial",
    "Verif.Referral.C92_stranger_violation",
    "Verif.Referral.C92_abroad_violation"
   ],
   "note": "For executions in which the accounts named in the steps are registered, new ones are given in the lowercase spelling, genesis records have a status, and the module can take note of the changes of balance. The levels also under the conditions of C24. Under the conditions of C58 it can if delegations are not negative, fit in 64 bits together and dates are before 2263 (C92_sound_partial). False when an account is registered under, or moves to, one that is not registered itself: both are accepted, a record without coins appears for the latter, which may own some, and which then cannot be registered any more (C92_stranger_violation, C92_abroad_violation)."
  },
  {
   "property": "C93",
   "status": "partial",
   "theorems": [
    "Verif.Noding.C93_force",
    "Verif.Noding.C93_qualified",
    "Verif.Noding.C93_queue_partial",
    "Verif.Noding.C93_place_lost_violation"
   ],
   "note": "Proved for all stores if no coins exceed 64 bits, except the places in the queue, which needs numbers and places that agree (C34). Otherwise a validator that stays can lose its place (C93_place_lost_violation)."
  },
  {
   "property": "C94",
   "status": "partial",
   "theorems": [
    "Verif.Patch.C94_time",
    "Verif.Patch.C94_order",
    "Verif.Patch.C94_cluster",
    "Verif.Patch.C94_accounts",
    "Verif.Patch.C94_requests_sum",
    "Verif.Patch.C94_interest",
    "Verif.Patch.C94_agree",
    "Verif.Patch.C94_tasks_partial",
    "Verif.Patch.C94_banish_violation",
    "Verif.Patch.C94_bonus",
    "Verif.Patch.C94_start_partial",
    "Verif.Patch.C94_start_violation",
    "Verif.Patch.C94_money",
    "Verif.Patch.C94_votes"
   ],
   "note": "For moments within the calendar of Python (years 1 to 9999); one task per account if every account is in one cluster; the voting period at normal speed. False for banishments, whose tasks keep the bytes of the address (C94_banish_violation), and for the start if a task lies in the remote future: it is written as the end of the year 9999, which the scheduler refuses (C94_start_violation). Validators, names of statuses and parameters are not modelled."
  },
  {
   "property": "C95",
   "status": "partial",
   "theorems": [
    "Verif.Referral.C95_tasks",
    "Verif.Referral.C95_texts",
    "Verif.Referral.C95_others",
    "Verif.Referral.C95_records",
    "Verif.Referral.C95_agree_partial",
    "Verif.Referral.C95_fair",
    "Verif.Referral.C95_rubbish",
    "Verif.Referral.C95_returned",
    "Verif.Referral.C95_back_partial",
    "Verif.Referral.C95_uncounted_violation",
    "Verif.Referral.C95_two_dates_violation",
    "Verif.Referral.C95_no_task_violation",
    "Verif.Referral.C95_capitals_violation",
    "Verif.Referral.C95_stranger_violation"
   ],
   "note": "Proved for all stores and schedules, except: record and scheduler agree for accounts with at most one date in the scheduler, and at least one if the record tells one (C95_agree_partial, otherwise false: C95_two_dates_violation, C95_no_task_violation); the structure stays consistent if all texts are in lowercase (otherwise false: C95_capitals_violation). A task for a stranger creates a record (C95_stranger_violation). The return of unfairly banished accounts succeeds, whatever the callbacks answer, if the sums of delegations have room for theirs (C95_back_partial), but it does not count them as active, so that lists of active referrals become wrong (C95_uncounted_violation)."
  },
  {
   "property": "C96",
   "status": "partial",
   "theorems": [
    "Verif.Chain.Settings.C96_adds_partial",
    "Verif.Chain.Settings.C96_needs",
    "Verif.Chain.Settings.C96_blocked",
    "Verif.Chain.Settings.C96_poll",
    "Verif.Chain.Settings.C96_stops_violation"
   ],
   "note": "Proved for 2.4.8 and 2.2.0, and for any handler that finds all other parameters. False for 2.4.2, 2.4.4 and 2.4.6 as they are written now: they ask for parameters that only later versions add and stop the chain (C96_stops_violation)."
  },
  {
   "property": "C97",
   "status": "partial",
   "theorems": [
    "Verif.Noding.C97_block_partial",
    "Verif.Noding.C97_goes_on_partial",
    "Verif.Noding.C97_nobody_violation",
    "Verif.Noding.C97_last_leaves_violation",
    "Verif.Noding.C97_power_violation"
   ],
   "note": "False: nothing keeps the last validator from switching off, being jailed or banned, and the table of powers has no upper limit. C97_goes_on_partial: the chain goes on if at every end of a block somebody is active and the table leaves room; C97_block_partial says exactly when a block is taken. For executions in which every key is used by one account only (as C28)."
  },
  {
   "property": "C98",
   "status": "proved",
   "theorems": [
    "Verif.Schedule.C98_get",
    "Verif.Schedule.C98_out_of_range",
    "Verif.Schedule.C98_next_block",
    "Verif.Schedule.C98_split",
    "Verif.Schedule.C98_all",
    "Verif.Schedule.C98_shown_runs"
   ],
   "note": "The parsing of the two moments out of texts is left out. Periods that leave the years 1970 to 2262 are answered with an error."
  },
  {
   "property": "C99",
   "status": "partial",
   "theorems": [
    "Verif.Earning.C99_shown",
    "Verif.Earning.C99_one",
    "Verif.Earning.C99_earners_shown",
    "Verif.Earning.C99_list_partial",
    "Verif.Earning.C99_empty_earner_violation"
   ],
   "note": "Everything but the last sentence is proved for every genesis file. The list: only if the genesis file names no earner without times; such a file is accepted, and the earner is listed (C99_empty_earner_violation)."
  }
 ]
}