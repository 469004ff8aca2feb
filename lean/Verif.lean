import Verif.Util.Props
import Verif.Util.Event
import Verif.Bank.Props
import Verif.Schedule.Props
import Verif.Bank.Shift
import Verif.Delegating.Props
import Verif.Delegating.Interest
import Verif.Delegating.Accept
import Verif.Noding.Reward
import Verif.Chain.Money
import Verif.Voting.Props
import Verif.Profile.Props
import Verif.Earning.Props
import Verif.Referral.Props
import Verif.Referral.Props2
import Verif.Chain.Genesis
import Verif.Voting.Genesis
import Verif.Voting.History
import Verif.Profile.Genesis
import Verif.Profile.Purchase
import Verif.Profile.Owner
import Verif.Profile.Messenger
import Verif.Profile.Told
import Verif.Profile.Accept
import Verif.Referral.Status
import Verif.Referral.Earned3
import Verif.Referral.Dates
import Verif.Referral.Tariff
import Verif.Referral.WaitProps
import Verif.Referral.Retire5
import Verif.Referral.ExportCases
import Verif.Voting.Respondents
import Verif.Noding.Export
import Verif.Noding.Credit
import Verif.Noding.Force
import Verif.Noding.Halt
import Verif.Noding.Allowed
import Verif.Chain.Patch
import Verif.Chain.EnactCases
import Verif.Chain.Decided
import Verif.Chain.UpgradeCases
import Verif.Referral.Refresh
import Verif.Referral.RefreshCases
import Verif.Referral.Restart
import Verif.Chain.Deactivate
import Verif.Referral.QueryProps
import Verif.Referral.Affirm
import Verif.Referral.Announce
import Verif.Referral.AnnounceCases
import Verif.Referral.Relocate
import Verif.Referral.RelocateCases
import Verif.Referral.Recount
import Verif.Referral.Rehome
import Verif.Referral.Rehome2
import Verif.Referral.RehomeCases
import Verif.Referral.Readmit
import Verif.Referral.Readmit2
import Verif.Referral.Columns
import Verif.Referral.RehomeSums
import Verif.Referral.RehomeSumCases
import Verif.Referral.ReadmitSums
import Verif.Referral.Orderly
import Verif.Referral.Order
import Verif.Referral.RestartOrder
import Verif.Referral.RestartStarts
import Verif.Referral.Exact
import Verif.Referral.Exact2
import Verif.Referral.ExactProps
import Verif.Referral.Restore
import Verif.Referral.RestoreProps
import Verif.Referral.RestoreBack
import Verif.Chain.Settings
import Verif.Schedule.Query
import Verif.Earning.Query
import Verif.Earning.Clean
import Verif.Bank.Spare
import Verif.Chain.Spare
import Verif.Profile.Spare
import Verif.Profile.Query
import Verif.Referral.Customer
import Verif.Referral.Lapse
import Verif.Referral.Enrol
import Verif.Referral.Farewell
import Verif.Referral.Squash
import Verif.Referral.Relegate
import Verif.Referral.Numbers
