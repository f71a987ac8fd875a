import Verif.Props.ArbMux
import Verif.Props.Arbiter
import Verif.Props.AsyncFifo
import Verif.Props.Avst
import Verif.Props.Axi
import Verif.Props.Axil
import Verif.Props.AxisAdapter
import Verif.Props.AxisDemux
import Verif.Props.AxisFifo
import Verif.Props.AxisFrame
import Verif.Props.AxisRegister
import Verif.Props.AxisTap
import Verif.Props.BaseR
import Verif.Props.BaseRSerdes
import Verif.Props.Broadcast
import Verif.Props.BufRing
import Verif.Props.BuildImages
import Verif.Props.CfgSpace
import Verif.Props.CmacPad
import Verif.Props.Cobs
import Verif.Props.CplQueue
import Verif.Props.CplRing
import Verif.Props.CplTs
import Verif.Props.CplWrite
import Verif.Props.Crc
import Verif.Props.DescFetch
import Verif.Props.DmaLimit
import Verif.Props.DmaRd
import Verif.Props.DmaRdCpl
import Verif.Props.DmaRdReq
import Verif.Props.DmaSink
import Verif.Props.DmaSinkDone
import Verif.Props.DmaSource
import Verif.Props.DmaWr
import Verif.Props.Driver
import Verif.Props.DrpSw
import Verif.Props.FcCount
import Verif.Props.Frames
import Verif.Props.Gmii
import Verif.Props.I2cInit
import Verif.Props.IrqEdge
import Verif.Props.IrqRate
import Verif.Props.LedSreg
import Verif.Props.Lfsr
import Verif.Props.Lifecycle
import Verif.Props.LinuxRx
import Verif.Props.LinuxTx
import Verif.Props.MacCtrlRx
import Verif.Props.MacCtrlTx
import Verif.Props.MacTs
import Verif.Props.Msi
import Verif.Props.Msix
import Verif.Props.PauseCtrl
import Verif.Props.PcieAlloc
import Verif.Props.PcieCap
import Verif.Props.PcieEnum
import Verif.Props.PcieIf
import Verif.Props.PcieLink
import Verif.Props.PcieRoute
import Verif.Props.Perout
import Verif.Props.PhyRx
import Verif.Props.PipeFifo
import Verif.Props.Pointers
import Verif.Props.PriorityEncoder
import Verif.Props.PsdpRam
import Verif.Props.Ptp
import Verif.Props.PtpClock
import Verif.Props.PtpTd
import Verif.Props.PulseMerge
import Verif.Props.QueueManager
import Verif.Props.QueueMap
import Verif.Props.RamDemux
import Verif.Props.RbDrp
import Verif.Props.RegBlock
import Verif.Props.RegIf
import Verif.Props.Requester
import Verif.Props.Resource
import Verif.Props.RxCsum
import Verif.Props.RxEngine
import Verif.Props.RxHash
import Verif.Props.Sched
import Verif.Props.Scrambler
import Verif.Props.Segments
import Verif.Props.StatsCollect
import Verif.Props.StatsCounter
import Verif.Props.TagMux
import Verif.Props.TdmaCtrl
import Verif.Props.TdmaSched
import Verif.Props.Timespec
import Verif.Props.Tlp
import Verif.Props.TlpDemux
import Verif.Props.TlpPack
import Verif.Props.TxCsum
import Verif.Props.TxEngine
import Verif.Props.UsStream
import Verif.Props.UsTlp
import Verif.Props.Wake
import Verif.Props.WakeLinux
import Verif.Props.XcvrReg
import Verif.Props.XcvrTables
import Verif.Props.Xgmii
import Verif.Audit
