import Verif.MemIAVL.Props
import Verif.MemIAVL.IteratorProps
import Verif.MemIAVL.HashProps
import Verif.MemIAVL.SnapshotProps
import Verif.MemIAVL.ExportProps
import Verif.MemIAVL.HeapProps
import Verif.MemIAVL.VersionProps
import Verif.Lib.Sort
import Verif.MemIAVL.MultiTree
import Verif.MemIAVL.MultiTreeLemmas
import Verif.MemIAVL.DB
import Verif.MemIAVL.DBSpec
import Verif.MemIAVL.DBLemmas
import Verif.MemIAVL.DBLemmas2
import Verif.MemIAVL.DBLemmas3
import Verif.MemIAVL.DBLemmas4
import Verif.MemIAVL.DBProps
import Verif.MemIAVL.ExportSpec
import Verif.MemIAVL.WalFile
import Verif.MemIAVL.WalFileProps
import Verif.MemIAVL.UpgradeProps
import Verif.MemIAVL.InitVersion
import Verif.MemIAVL.InitVersionProps
import Verif.EVM.StateDB
import Verif.EVM.StateDBSpec
import Verif.EVM.StateDBLemmas
import Verif.EVM.StateDBLemmas2
import Verif.EVM.StateDBLemmas3
import Verif.EVM.StateDBLemmas4
import Verif.EVM.StateDBLemmas5
import Verif.EVM.StateDBLemmas6
import Verif.EVM.StateDBProps
import Verif.Lib.KV
import Verif.Hyperion.Pool
import Verif.Hyperion.PoolSpec
import Verif.Hyperion.PoolLemmas
import Verif.Hyperion.PoolLemmas2
import Verif.Hyperion.PoolLemmas3
import Verif.Hyperion.PoolLemmas4
import Verif.Hyperion.PoolLemmas5
import Verif.Hyperion.PoolLemmas6
import Verif.Hyperion.PoolLemmas7
import Verif.Hyperion.PoolLemmas8
import Verif.Hyperion.PoolProps
import Verif.Hyperion.PoolProps2
import Verif.Hyperion.Genesis
import Verif.Hyperion.GenesisProps
import Verif.Hyperion.PoolLemmas9
import Verif.Hyperion.PoolProps3
import Verif.Hyperion.Keys
import Verif.Hyperion.KeysLemmas
import Verif.Hyperion.KeysProps
import Verif.Hyperion.SkippedProps
import Verif.Hyperion.Claims
import Verif.Hyperion.ClaimsLemmas
import Verif.Hyperion.ClaimsProps
import Verif.Hyperion.Attest
import Verif.Hyperion.AttestLemmas
import Verif.Hyperion.AttestLemmas2
import Verif.Hyperion.AttestLemmas3
import Verif.Hyperion.AttestProps
import Verif.Hyperion.Valset
import Verif.Hyperion.ValsetLemmas
import Verif.Hyperion.ValsetProps
import Verif.Hyperion.External
import Verif.Hyperion.ExternalLemmas
import Verif.Hyperion.ExternalLemmas2
import Verif.Hyperion.ExternalProps
import Verif.FeeMarket.BaseFee
import Verif.FeeMarket.BaseFeeProps
import Verif.FeeMarket.Tx
import Verif.FeeMarket.TxProps
import Verif.FeeMarket.CosmosFee
import Verif.FeeMarket.CosmosFeeProps
import Verif.Vesting.Schedule
import Verif.Vesting.ScheduleProps
import Verif.Vesting.ClawbackProps
import Verif.Epochs.Epochs
import Verif.Epochs.EpochsProps
import Verif.TokenFactory.Denom
import Verif.TokenFactory.DenomProps
import Verif.TokenFactory.Factory
import Verif.TokenFactory.FactoryLemmas
import Verif.TokenFactory.FactoryProps
import Verif.Erc20.Registry
import Verif.Erc20.RegistryProps
import Verif.Erc20.Convert
import Verif.Erc20.ConvertProps
import Verif.VersionDB.ChangeSet
import Verif.VersionDB.ChangeSetLemmas
import Verif.VersionDB.ChangeSetProps
import Verif.VersionDB.Sorter
import Verif.VersionDB.SorterLemmas
import Verif.VersionDB.SorterProps
import Verif.VersionDB.Store
import Verif.VersionDB.StoreLemmas
import Verif.VersionDB.StoreLemmas2
import Verif.VersionDB.StoreProps
import Verif.Hyperion.Slashing
import Verif.Hyperion.SlashingProps
import Verif.VM.Analysis
import Verif.VM.AnalysisLemmas
import Verif.VM.AnalysisProps
import Verif.VM.Gas
import Verif.VM.GasProps
import Verif.VM.SStore
import Verif.VM.SStoreProps
import Verif.VM.Op
import Verif.VM.World
import Verif.VM.Interp
import Verif.VM.InterpLemmas
import Verif.VM.DynLemmas
import Verif.VM.StepLemmas
import Verif.VM.TerminationProps
import Verif.VM.FrameRule
import Verif.VM.SafetyProps
import Verif.VM.StaticProps
import Verif.VM.IsolationProps
import Verif.VM.ValueProps
import Verif.VM.ArithProps
import Verif.VM.MemLemmas
import Verif.VM.StepProps
import Verif.VM.CompileProps
import Verif.Addr.Bech32
import Verif.Addr.Lemmas
import Verif.Addr.AddrProps
import Verif.Chronos.Cron
import Verif.Chronos.CronLemmas
import Verif.Chronos.CronProps
import Verif.Chronos.QueueProps
import Verif.VM.IdleRule
import Verif.Revenue.Registry
import Verif.Revenue.RegistryProps
import Verif.VM.Tx
import Verif.VM.TxLemmas
import Verif.VM.TxProps
import Verif.VM.TransferProps
import Verif.EVM.Precompile
import Verif.EVM.PrecompileSpec
import Verif.EVM.PrecompileLemmas
import Verif.EVM.PrecompileLemmas2
import Verif.EVM.PrecompileLemmas3
import Verif.EVM.PrecompileProps
import Verif.Erc20.Token
import Verif.Erc20.TokenSpec
import Verif.Erc20.TokenLemmas
import Verif.Erc20.TokenLemmas2
import Verif.Erc20.TokenLemmas3
import Verif.Erc20.TokenProps
import Verif.Authority.Calls
import Verif.Authority.CallsSpec
import Verif.Authority.CallsLemmas
import Verif.Authority.CallsLemmas2
import Verif.Authority.CallsDemo
import Verif.Authority.CallsProps
import Verif.Rpc.Estimate
import Verif.Rpc.EstimateSpec
import Verif.Rpc.EstimateLemmas
import Verif.Rpc.EstimateLemmas2
import Verif.Rpc.EstimateProps
import Verif.Ante.Routes
import Verif.Ante.RoutesSpec
import Verif.Ante.RoutesLemmas
import Verif.Ante.RoutesProps
import Verif.Rpc.Logs
import Verif.Rpc.LogsSpec
import Verif.Rpc.LogsLemmas
import Verif.Rpc.LogsProps
import Verif.Rpc.Index
import Verif.Rpc.IndexSpec
import Verif.Rpc.IndexLemmas
import Verif.Rpc.IndexLemmas2
import Verif.Rpc.IndexLemmas3
import Verif.Rpc.IndexProps
import Verif.Rpc.Receipts
import Verif.Rpc.ReceiptsSpec
import Verif.Rpc.ReceiptsLemmas
import Verif.Rpc.ReceiptsProps
import Verif.EthTx.Wrap
import Verif.EthTx.WrapSpec
import Verif.EthTx.WrapLemmas
import Verif.EthTx.WrapProps
import Verif.EthTx.Send
import Verif.EthTx.SendSpec
import Verif.EthTx.SendLemmas
import Verif.EthTx.SendProps
import Verif.Rpc.Price
import Verif.Rpc.PriceSpec
import Verif.Rpc.PriceProps
import Verif.Rpc.FeeHistory
import Verif.Rpc.FeeHistorySpec
import Verif.Rpc.FeeHistoryLemmas
import Verif.Rpc.FeeHistoryProps
import Verif.Typed.Data
import Verif.Typed.DataSpec
import Verif.Typed.DataLemmas
import Verif.Typed.ValueLemmas
import Verif.Typed.Doc
import Verif.Typed.DocSpec
import Verif.Typed.DocLemmas
import Verif.Typed.WrapLemmas
import Verif.Typed.ExactLemmas
import Verif.Typed.BindLemmas
import Verif.Typed.Toy
import Verif.Typed.Props
import Verif.Rpc.Poll
import Verif.Rpc.PollLemmas
import Verif.Rpc.PollLemmas2
import Verif.Rpc.PollSpec
import Verif.Rpc.PollFlow
import Verif.Rpc.PollFlow2
import Verif.Rpc.PollLemmas3
import Verif.Rpc.PollProps
import Verif.Erc20.Ibc
import Verif.Erc20.IbcSpec
import Verif.Erc20.IbcLemmas
import Verif.Erc20.IbcLemmas2
import Verif.Erc20.IbcLemmas3
import Verif.Erc20.IbcLemmas4
import Verif.Erc20.IbcLemmas5
import Verif.Erc20.IbcLemmas6
import Verif.Erc20.IbcProps
import Verif.Erc20.Weights
import Verif.Erc20.WeightsSpec
import Verif.Erc20.WeightsLemmas
import Verif.Erc20.WeightsProps
import Verif.Hyperion.Orch
import Verif.Hyperion.OrchSpec
import Verif.Hyperion.OrchLemmas
import Verif.Hyperion.OrchProps
import Verif.Rpc.Limits
import Verif.Rpc.LimitsSpec
import Verif.Rpc.LimitsLemmas
import Verif.Rpc.LimitsProps
import Verif.Rpc.Cache
import Verif.Rpc.CacheSpec
import Verif.Rpc.CacheLemmas
import Verif.Rpc.CacheProps
import Verif.Rpc.Sockets
import Verif.Rpc.SocketsSpec
import Verif.Rpc.SocketsLemmas
import Verif.Rpc.SocketsLemmas2
import Verif.Rpc.SocketsLemmas3
import Verif.Rpc.SocketsProps
import Verif.Authority.Transfers
import Verif.Authority.TransfersSpec
import Verif.Authority.TransfersLemmas
import Verif.Authority.TransfersLemmas2
import Verif.Authority.TransfersLemmas3
import Verif.Authority.TransfersLemmas4
import Verif.Authority.TransfersProps
import Verif.Rpc.Pages
import Verif.Rpc.PagesSpec
import Verif.Rpc.PagesLemmas
import Verif.Rpc.PagesLemmas2
import Verif.Rpc.PagesProps
import Verif.Hyperion.History
import Verif.Hyperion.HistorySpec
import Verif.Hyperion.HistoryLemmas
import Verif.Hyperion.HistoryProps
import Verif.EVM.Gate
import Verif.EVM.GateSpec
import Verif.EVM.GateLemmas
import Verif.EVM.GateProps
import Verif.VM.Builtin
import Verif.VM.BuiltinSpec
import Verif.VM.BuiltinLemmas
import Verif.VM.BuiltinProps
import Verif.Hyperion.Admin
import Verif.Hyperion.AdminSpec
import Verif.Hyperion.AdminLemmas
import Verif.Hyperion.AdminProps
import Verif.Chronos.Archive
import Verif.Chronos.ArchiveSpec
import Verif.Chronos.ArchiveLemmas
import Verif.Chronos.ArchiveProps
import Verif.Erc20.Create
import Verif.Erc20.CreateSpec
import Verif.Erc20.CreateLemmas
import Verif.Erc20.CreateRevert
import Verif.Erc20.CreateProps
import Verif.Vesting.Grants
import Verif.Vesting.GrantsSpec
import Verif.Vesting.GrantsLemmas
import Verif.Vesting.GrantsProps
import Verif.Authority.Propose
import Verif.Authority.ProposeSpec
import Verif.Authority.ProposeLemmas
import Verif.Authority.ProposeProps
import Verif.Hyperion.Evidence
import Verif.Hyperion.EvidenceSpec
import Verif.Hyperion.EvidenceLemmas
import Verif.Hyperion.EvidenceProps
import Verif.Rpc.BlockRef
import Verif.Rpc.BlockRefSpec
import Verif.Rpc.BlockRefLemmas
import Verif.Rpc.BlockRefProps
import Verif.EVM.BlockHash
import Verif.EVM.BlockHashSpec
import Verif.EVM.BlockHashLemmas
import Verif.EVM.BlockHashProps
import Verif.Wallet.Ledger
import Verif.Wallet.LedgerSpec
import Verif.Wallet.LedgerLemmas
import Verif.Wallet.LedgerProps
import Verif.App.ZeroHeight
import Verif.App.ZeroHeightSpec
import Verif.App.ZeroHeightLemmas
import Verif.App.ZeroHeightProps
import Verif.EVM.LogRecords
import Verif.EVM.LogRecordsSpec
import Verif.EVM.LogRecordsLemmas
import Verif.EVM.LogRecordsProps
import Verif.EVM.ForkOrder
import Verif.EVM.ForkOrderSpec
import Verif.EVM.ForkOrderLemmas
import Verif.EVM.ForkOrderProps
import Verif.Rpc.ProposalList
import Verif.Rpc.ProposalListSpec
import Verif.Rpc.ProposalListLemmas
import Verif.Rpc.ProposalListProps
