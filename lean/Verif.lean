import Verif.Base
import Verif.AMap
import Verif.DFloat
import Verif.Types
import Verif.Config
import Verif.Oracle
import Verif.Virtual
import Verif.Exchange
import Verif.Referral
import Verif.Ops
import Verif.Step
import Verif.Lists
import Verif.Wrapper
import Verif.DFloatProps
import Verif.Frame
import Verif.SpecW
import Verif.SpecOps
import Verif.Path
import Verif.Shape
import Verif.Effects
import Verif.Getters
import Verif.Ledger
import Verif.Book
import Verif.Admin
import Verif.PriceProps
import Verif.Stage
import Verif.Requests
import Verif.AccFrame
import Verif.ReqProps
import Verif.Lifecycle
import Verif.Placement
import Verif.Valuation
import Verif.Collateral
import Verif.Trade
import Verif.Marks
import Verif.Orders
import Verif.Limits
import Verif.Scenario
import Verif.Validated
import Verif.Fees
import Verif.Liquidation
import Verif.Adl
import Verif.Positions
import Verif.Debt
import Verif.Balances
import Verif.Liquidity
import Verif.Referrals
import Verif.Claiming
import Verif.Access
import Verif.Oaths
import Verif.Funding
import Verif.FundingRate
import Verif.FeeRate
import Verif.Tokens
import Verif.Conserve
import Verif.Known
import Verif.Reads
import Verif.Errs
import Verif.Progress
import Verif.Failures
import Verif.Reasons
import Verif.TradeFair
import Verif.ReasonsTrade
import Verif.ReasonsOrder
import Verif.ReasonsWithdraw
import Verif.Executes
import Verif.Side
import Verif.Refusals
import Verif.RefusalsDeposit
import Verif.RefusalsPool
import Verif.RefusalsAdmin
import Verif.RefusalsAll
import Verif.WitnessA
import Verif.WitnessB
import Verif.WitnessC
import Verif.WitnessD
import Verif.Events
import Verif.Indexer
import Verif.WitnessE
import Verif.Collecting
import Verif.Asked
import Verif.WitnessF
import Verif.World
import Verif.WitnessG
import Verif.Order
import Verif.OrderW
import Verif.OrderX
import Verif.OrderY
import Verif.OrderZ
import Verif.OrderR
import Verif.OrderM
import Verif.OrderG
import Verif.OrderS
import Verif.OrderOps
import Verif.OrderV
import Verif.WitnessH
import Verif.Blind
import Verif.WitnessI
import Verif.Guarded
import Verif.WitnessJ
import Verif.LiquidateFair
import Verif.Attribution
import Verif.WitnessK
import Verif.PoolSide
import Verif.WitnessL
import Verif.Report
import Verif.WitnessM
import Verif.Exit
import Verif.WitnessN
import Verif.Deploy
import Verif.WitnessO
import Verif.Stale
import Verif.WitnessP
import Verif.Schedule
import Verif.WitnessQ
import Verif.Binding
import Verif.Unique
import Verif.BindingKeeper
import Verif.BindingRequest
import Verif.BindingAll
import Verif.WitnessR
import Verif.Upfront
import Verif.WitnessS
import Verif.Outcome
import Verif.WitnessT
import Verif.Confluent
import Verif.WitnessU
import Verif.Payout
import Verif.WitnessV
import Verif.Generous
import Verif.Looser
import Verif.WitnessW
