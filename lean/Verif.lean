import Verif.Props.Bencode
import Verif.Props.Packets
import Verif.Props.Channel
import Verif.Props.WSClient
import Verif.Props.Limiter
import Verif.Props.Services
import Verif.Props.PortForward
import Verif.Props.Terminal
import Verif.Props.RemoteDirectory
import Verif.Props.Scan
import Verif.Props.DirectoryScanner
import Verif.Props.JsonRpc
import Verif.Props.Client
import Verif.Props.Device
import Verif.Props.Instructions
import Verif.Props.App
import Verif.Props.System
import Verif.Props.RemoteFiles
import Verif.Props.TermControl
import Verif.Props.TermWire
import Verif.Props.JsonRpcWire
import Verif.Props.Server
import Verif.Props.ScanWire
import Verif.Props.BlockingRead
import Verif.Props.Agent
import Verif.Props.Links
import Verif.Props.RemoteHealthy
import Verif.Props.Grammar
import Verif.Props.Opening
import Verif.Props.Limits
import Verif.Props.Exit
import Verif.Props.ScanFs
import Verif.Props.Slots
import Verif.Props.Library
import Verif.Props.ScanLost
import Verif.Props.ScanOld
import Verif.Props.Registration
import Verif.Props.Shlex
import Verif.Props.JsonText
import Verif.Props.RpcBytes
import Verif.Props.ScanJson
import Verif.Props.TermJson
import Verif.Props.Reports
import Verif.Props.ScanServer
import Verif.Props.ScanPart
import Verif.Props.Signals
import Verif.Props.Told
import Verif.Props.ChannelEnds
import Verif.Props.ServerBytes
import Verif.Props.ScanMirror
import Verif.Props.CommandLine
import Verif.Props.Locks
import Verif.Props.ChannelFile
import Verif.Model.LinkWrites
import Verif.Props.LinkWrites
import Verif.Spec.Answered
import Verif.Props.Answered
import Verif.Model.Names
import Verif.Spec.Names
import Verif.Proofs.Names
import Verif.Props.Names
import Verif.Props.Leftovers
import Verif.Props.Shared
import Verif.Props.Gaps
import Verif.Props.OpenChannels
import Verif.Props.Interference
import Verif.Props.ScanChanging
import Verif.Props.FileChanging
import Verif.Props.CommandProcess
import Verif.Props.ScanCopy
import Verif.Props.DiskMargin
import Verif.Props.CommandRun
import Verif.Props.ScanInstruction
import Verif.Props.MetaSync
import Verif.Props.DiskFresh
import Verif.Props.ClockChange
import Verif.Props.KillTime
import Verif.Props.Repeated
import Verif.Props.RepeatedReads
