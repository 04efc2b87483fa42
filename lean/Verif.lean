import Verif.Props.Compat
import Verif.Props.Bus
import Verif.Props.Monitor
import Verif.Props.Scoreboard
import Verif.Props.Session
import Verif.Props.Loopback
import Verif.Props.Failed
import Verif.Props.Driver
import Verif.Props.DriverBase
import Verif.Props.AvalonST
import Verif.Proof.Stream
import Verif.Proof.Triple
import Verif.Props.AvalonPkts
import Verif.Props.AvalonMM
import Verif.Props.AvalonMemory
import Verif.Proof.WaitN
import Verif.Props.MemBurst
import Verif.Props.MemServe
import Verif.Props.MemOps
import Verif.Props.MemWaits
import Verif.Props.Names
import Verif.Props.PktsReconf
import Verif.Props.SharedObj
import Verif.Props.AxiWrite
import Verif.Props.AxiGaps
import Verif.Props.AxiRead
import Verif.Props.Opb
import Verif.Props.Xgmii
import Verif.Props.AxiSlave
import Verif.Props.AxiQueue
import Verif.Props.AxiUse
import Verif.Props.AxiPar
import Verif.Props.Online
import Verif.Props.Window
import Verif.Props.BusNames
import Verif.Props.MmLoop
import Verif.Props.Cancel
import Verif.Props.Combine
import Verif.Props.Construct
import Verif.Props.BitDriver
import Verif.Props.WaitFor
import Verif.Props.Kwargs
import Verif.Props.Compat1
import Verif.Props.QueueBus
import Verif.Props.Idle
import Verif.Props.AxiMany
import Verif.Props.MmTasks
import Verif.Props.Held
import Verif.Props.XgLine
import Verif.Props.DriverCb
import Verif.Props.ReadyLatency
import Verif.Props.EndianSwapper
import Verif.Props.AxiDemo
import Verif.Props.SmallExamples
import Verif.Props.AxiGiveUp
import Verif.Props.AxiReadGiveUp
import Verif.Props.StreamFifo
import Verif.Props.MmHw
import Verif.Props.AxiTests
import Verif.Props.Len
import Verif.Props.MonKill
import Verif.Props.AxiTry
import Verif.Props.DrvKill
import Verif.Props.AxiExists
