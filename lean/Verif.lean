import Verif.Prelude
import Verif.Scale
import Verif.Msa.PropsKeys
import Verif.Msa.PropsDelegation
import Verif.Msa.PropsReplay
import Verif.Msa.PropsAccept
import Verif.Offchain.PropsKeys
import Verif.Offchain.Props
import Verif.Offchain.PropsClean
import Verif.SigRegistry.Props
import Verif.Stateful.PropsPage
import Verif.Stateful.Props
import Verif.Stateful.PropsReplay
import Verif.Stateful.PropsKinds
import Verif.Stateful.PropsEffect
import Verif.Capacity.Props
import Verif.Capacity.PropsAccept
import Verif.Capacity.PropsShare
import Verif.Handles.Props
import Verif.Handles.PropsAccept
import Verif.Handles.PropsEvents
import Verif.Schemas.Props
import Verif.Schemas.PropsEvents
import Verif.Schemas.Migration
import Verif.Schemas.PropsAccept
import Verif.Messages.PropsAccept
import Verif.Messages.PropsPages
import Verif.TimeRelease.Props
import Verif.TimeRelease.PropsEvents
import Verif.TimeRelease.PropsAccept
import Verif.Runtime.Props
import Verif.TxPayment.Props
import Verif.Nonce.Props
import Verif.Passkey.Props
import Verif.NonceRpc.Props
import Verif.Chain.Props
import Verif.Chain.PropsRefs
import Verif.Chain.PropsRetire
import Verif.Chain.PropsQuiet
import Verif.Messages.Migration
import Verif.Capacity.Migration
import Verif.TimeRelease.Migration
import Verif.Capacity.PropsExit
import Verif.TimeRelease.PropsExit
import Verif.Chain.PropsExit
import Verif.Chain.PropsSigned
import Verif.Chain.PropsSignedKinds
import Verif.Stateful.RealHash
import Verif.Chain.PropsWiring
import Verif.Council.Lemmas
import Verif.Council.Model
import Verif.Council.Props
import Verif.Msa.PropsQueries
import Verif.Msa.PropsEvents
import Verif.Stateful.PropsEvents
import Verif.Capacity.PropsEvents
import Verif.Handles.PropsVariants
import Verif.Handles.PropsFound
import Verif.TxPayment.PropsWeightFee
import Verif.TxPayment.PropsStake
import Verif.TxPayment.PropsMultiplier
import Verif.Chain.PropsFree
import Verif.Json.Grammar
import Verif.Json.Model
import Verif.Json.Lemmas
import Verif.Json.Parser
import Verif.Json.Exact
import Verif.Schemas.Parquet
import Verif.Schemas.PropsModel
import Verif.Schemas.PropsParquet
import Verif.Json.Write
import Verif.Rpc.Model
import Verif.Rpc.Lemmas
import Verif.Rpc.Props
import Verif.Tx.Model
import Verif.Tx.Props
import Verif.Tx.PropsSignUp
import Verif.Wrapped.Model
import Verif.Wrapped.Lemmas
import Verif.Wrapped.Steps
import Verif.Wrapped.Props
import Verif.Wrapped.PropsQuiet
import Verif.Chain.PropsOwn
import Verif.Wrapped.PropsOwn
import Verif.Chain.PropsBuilt
import Verif.Tokens.Model
import Verif.Tokens.Lemmas
import Verif.Tokens.Props
import Verif.Tx.PropsOutcome
import Verif.Tx.PropsPrice
import Verif.Wallet.Model
import Verif.Wallet.Lemmas
import Verif.Wallet.Props
import Verif.Wallet.PropsAgree
import Verif.Wrapped.PropsTokens
import Verif.Wrapped.PropsAgree
import Verif.Stateful.PropsOrder
import Verif.Chain.PropsOrder
import Verif.Whole.Model
import Verif.Whole.Props
import Verif.Whole.Genesis
import Verif.Whole.PropsGenesis
import Verif.Offchain.Fork
import Verif.Offchain.ForkLemmas
import Verif.Offchain.PropsFork
import Verif.Weights.Model
import Verif.Weights.Lemmas
import Verif.Weights.Kept
import Verif.Weights.Props
import Verif.Offchain.Threads
import Verif.Offchain.ThreadsLemmas
import Verif.Offchain.PropsThreads
import Verif.Pool.Model
import Verif.Pool.Lemmas
import Verif.Pool.Props
import Verif.Pool.PropsMissing
import Verif.Pool.PropsAgree
import Verif.Sealing.Props
import Verif.KeyIndex.Model
import Verif.KeyIndex.Lemmas
import Verif.KeyIndex.Props
import Verif.Network.Model
import Verif.Network.Props
import Verif.Specs.Model
import Verif.Specs.Props
import Verif.Governance.Model
import Verif.Governance.Props
import Verif.Governance.PropsRoot
import Verif.Governance.PropsStop
import Verif.Treasury.Model
import Verif.Treasury.Props
import Verif.Network.PropsSigning
import Verif.Handles.Rpc
import Verif.Handles.PropsRpc
import Verif.Deposits.Model
import Verif.Deposits.Props
import Verif.Json.Skip
import Verif.Schemas.PropsOnly
import Verif.Collators.Model
import Verif.Collators.Lemmas
import Verif.Collators.Step
import Verif.Collators.PropsBonds
import Verif.Collators.Props
import Verif.Collators.PropsSession
import Verif.Collators.PropsNamed
import Verif.Collators.PropsFalse
import Verif.Capacity.PropsOrder
import Verif.Chain.PropsStakes
import Verif.Handles.PropsOrder
import Verif.Chain.PropsHandleOrder
import Verif.Deposits.PropsRemoved
import Verif.Msa.PropsOrder
import Verif.Chain.PropsConsents
import Verif.TimeRelease.PropsOrder
import Verif.Messages.PropsOrder
import Verif.Chain.PropsPallets
import Verif.Schemas.Codec
import Verif.Schemas.PropsCodec
import Verif.Tx.PropsExchange
import Verif.Tx.PropsLeftOut
