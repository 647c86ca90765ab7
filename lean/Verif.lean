import Verif.Bytes
import Verif.IntConv
import Verif.IntConvProps
import Verif.IntText
import Verif.IntTextProps
import Verif.Rlp
import Verif.RlpLemmas
import Verif.RlpProps
import Verif.Merkle
import Verif.Mbt
import Verif.MbtLemmas
import Verif.MbtProps
import Verif.MbtSound
import Verif.SolProof
import Verif.SolProofProps
import Verif.Mta
import Verif.MtaLemmas
import Verif.MtaDb
import Verif.MtaProps
import Verif.Fragment
import Verif.FragmentProps
import Verif.MtaData
import Verif.Serialize
import Verif.SerializeProps
import Verif.BtpAddress
import Verif.BtpAddressProps
import Verif.Address
import Verif.AddressProps
import Verif.BmvBridge
import Verif.BmvBridgeProps
import Verif.SolBmc
import Verif.SolBmcLemmas
import Verif.SolBmcSeq
import Verif.SolBmcProps
import Verif.SolRoutes
import Verif.SolRoutesLemmas
import Verif.SolRoutesTab
import Verif.SolRoutesProps
import Verif.SolAnn
import Verif.SolAnnProps
import Verif.EnumDict
import Verif.EnumDictProps
import Verif.JavaOwners
import Verif.JavaBmc
import Verif.JavaBmcLemmas
import Verif.JavaBmcInv
import Verif.JavaBmcLedger
import Verif.JavaBmcProps
import Verif.SolRlp
import Verif.SolRlpProps
import Verif.BtpBlock
import Verif.JavaBtpBlock
import Verif.JavaBtpBlockProps
import Verif.JavaBtpBlockAuth
import Verif.SolBtpBlock
import Verif.SolBtpBlockProps
import Verif.SolBtpBlockAuth
import Verif.XCall
import Verif.XCallInv
import Verif.XCallProps
import Verif.XCallSys
import Verif.Link
import Verif.LinkLemmas
import Verif.LinkProps
import Verif.Receiver
import Verif.ReceiverProps
import Verif.RelayProps
import Verif.Errors
import Verif.ErrorsProps
import Verif.Sender
import Verif.SenderProps
import Verif.LayerDb
import Verif.LayerDbProps
import Verif.Wallet
import Verif.WalletProps
import Verif.MptProof
import Verif.MptProofProps
import Verif.Monitor
import Verif.MonitorProps
import Verif.IconOptions
import Verif.IconOptionsProps
import Verif.JavaMta
import Verif.JavaMtaProps
import Verif.JavaMpt
import Verif.JavaMptProps
import Verif.JavaIconBmv
import Verif.JavaIconBmvProps
import Verif.Tab
import Verif.Ncs
import Verif.NcsProps
import Verif.NcsSys
import Verif.NcsSysProps
import Verif.TokenBsh
import Verif.TokenBshProps
import Verif.FeeAgg
import Verif.FeeAggProps
import Verif.PyInt
import Verif.PyDb
import Verif.PyDbProps
import Verif.PyRlp
import Verif.PyRlpProps
import Verif.PyBase64
import Verif.PyBase64Props
import Verif.PyAddr
import Verif.PyAddrProps
import Verif.PyMta
import Verif.PyMtaProps
import Verif.PyMpt
import Verif.PyMptProps
import Verif.PyBmv
import Verif.PyBmvProps
import Verif.PyBmc
import Verif.PyBmcLemmas
import Verif.PyBmcProps
import Verif.PyBmcConf
import Verif.PyBmcBlock
import Verif.PyToken
import Verif.PyTokenProps
import Verif.PyTokenMsg
import Verif.PyTokenNet
import Verif.SolRelay
import Verif.SolRelayProps
import Verif.IntLang
import Verif.Tight
import Verif.EndToEnd
import Verif.EndToEndProps
import Verif.Tight2
import Verif.SolText
import Verif.SolTextProps
import Verif.XCallErr
import Verif.JavaMsgs
import Verif.SolBmcBlock
import Verif.JavaBmcBlock
import Verif.DApp
import Verif.DAppProps
import Verif.EvmToIcon
import Verif.IconToIcon
import Verif.DropBlock
import Verif.PyMulti
import Verif.PyMultiProps
import Verif.PyMultiEvents
import Verif.PyCpf
import Verif.PyCpfProps
import Verif.HexJsonProps
import Verif.JavaUtilProps
import Verif.SolMemProps
import Verif.SolQueueProps
import Verif.JavaObjProps
import Verif.RlpObjProps
import Verif.RelayConfigProps
import Verif.SolNetProps
import Verif.SolLinksProps
import Verif.SolAnswer
import Verif.SolAnswerInv
import Verif.SolAnswerProps
import Verif.XCallNet
import Verif.XCallNetMoves
import Verif.XCallNetSteps
import Verif.XCallOpen
import Verif.XCallNetInv
import Verif.XCallNetLive
import Verif.XCallNetProj
import Verif.XCallNetProps
import Verif.JavaMoves
import Verif.MixNet
import Verif.MixNetProps
import Verif.XMix
import Verif.XMixMoves
import Verif.XMixSteps
import Verif.XMixInv
import Verif.XMixLive
import Verif.XMixProps
import Verif.XMixLinks
import Verif.XMixLinksInv
import Verif.XMixLinksProps
import Verif.MixMoney
import Verif.MixMoneyNet
import Verif.MixMoneyProps
import Verif.SolBmcGrow
import Verif.XMixNum
import Verif.XMixVerified
import Verif.XMixVerifiedProps
import Verif.JavaRoutes
import Verif.JavaRoutesInv
import Verif.JavaRoutesProps
import Verif.PyEnd
import Verif.JavaEnd
import Verif.PyTokenEnd
import Verif.RelayLog
import Verif.CliOptions
import Verif.DAppNet
import Verif.WsMonitor
import Verif.WsMonitorProps
import Verif.NcsFail
import Verif.HttpStream
import Verif.HttpStreamProps
import Verif.NcsEnd
import Verif.NcsFees
import Verif.JsonRpc
import Verif.Zip
import Verif.Keccak
import Verif.DebugBsh
import Verif.HttpDo
