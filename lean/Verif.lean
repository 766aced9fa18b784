import Verif.Props.Crypto
import Verif.Props.Encoding
import Verif.Props.Bls
import Verif.Props.Dkg
import Verif.Props.App
import Verif.Props.Events
import Verif.Props.Medley
import Verif.Props.SolConfig
import Verif.Props.SolBatcher
import Verif.Props.SolExec
import Verif.Props.SolSlash
import Verif.Props.SolMoney
import Verif.Props.Actions
import Verif.Props.Observe
import Verif.Props.MainChain
import Verif.Props.Driver
import Verif.Props.Shares
import Verif.Props.Exec
import Verif.Props.SolOwner
import Verif.Props.Appeals
import Verif.Props.Expiry
import Verif.Props.Once
import Verif.Props.Keys
import Verif.Props.KeyShares
import Verif.Props.Sent
import Verif.Props.Honest
import Verif.Props.Avail
import Verif.Props.Net
import Verif.Props.Vote
import Verif.Props.Turn
import Verif.Props.Sign
import Verif.Props.Sender
import Verif.Props.Broadcast
import Verif.Proofs.DemoBroadcast
import Verif.Props.Tx
import Verif.Proofs.DemoTx
import Verif.Props.Wasm
import Verif.Props.Validators
import Verif.Props.Channels
import Verif.Props.EndToEnd
import Verif.Proofs.DemoEndToEnd
import Verif.Props.Secrecy
import Verif.Props.Restart
import Verif.Props.Targets
import Verif.Props.Page
import Verif.Props.CheckIn
import Verif.Props.Operator
import Verif.Props.Bootstrap
import Verif.Props.Token
import Verif.Props.Files
import Verif.Props.Deploy
import Verif.Props.Gas
import Verif.Props.Fund
import Verif.Props.ExecGas
import Verif.Props.ExecStuck
import Verif.Props.SetUp
import Verif.Props.Query
import Verif.Props.Tasks
import Verif.Props.Options
import Verif.Props.Erc1820
import Verif.Props.Init
