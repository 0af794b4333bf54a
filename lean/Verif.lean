import Verif.Common
import Verif.Ring
import Verif.Fifo
import Verif.FifoProps
import Verif.HsFifo
import Verif.HsFifoProps
import Verif.HsReg
import Verif.HsRegProps
import Verif.StreamNode
import Verif.StreamNodeProps
import Verif.SplitJoin
import Verif.SplitJoinProps
import Verif.Resizer
import Verif.ResizerProps
import Verif.RamPort
import Verif.RamPortProps
import Verif.FifoDrop
import Verif.FifoDropProps
import Verif.FifoCopy
import Verif.FifoCopyProps
import Verif.Gray
import Verif.GrayProps
import Verif.FifoAsync
import Verif.FifoAsyncProps
import Verif.OneHot
import Verif.OneHotProps
import Verif.FifoArray
import Verif.FifoArrayProps
import Verif.Ram
import Verif.RamProps
import Verif.RamXor
import Verif.RamXorProps
import Verif.Cam
import Verif.CamProps
import Verif.Flip
import Verif.FlipProps
import Verif.Lfsr
import Verif.LfsrProps
import Verif.CountLeading
import Verif.CountLeadingProps
import Verif.Bitonic
import Verif.BitonicProps
import Verif.Bcd
import Verif.BcdProps
import Verif.Crc
import Verif.CrcProps
import Verif.CrcPolyProps
import Verif.AxisEnResize
import Verif.AxisEnResizeProps
import Verif.BusMap
import Verif.BusMapProps
import Verif.Groups
import Verif.GroupsProps
import Verif.SimRam
import Verif.SimRamProps
import Verif.Timers
import Verif.TimersProps
import Verif.Uart
import Verif.UartProps
import Verif.Cdc
import Verif.CdcProps
import Verif.CdcSyncProps
import Verif.PseudoLruProps
import Verif.FifoOooProps
import Verif.AxiWDispatchProps
import Verif.Mi32
import Verif.Mi32Props
import Verif.AddrDecode
import Verif.AddrDecodeProps
import Verif.LiteEndpoint
import Verif.LiteEndpointProps
import Verif.AxiToLite
import Verif.AxiToLiteProps
import Verif.SlaveTimeout
import Verif.SlaveTimeoutProps
import Verif.Mdio
import Verif.MdioProps
import Verif.Spi
import Verif.SpiProps
import Verif.I2c
import Verif.I2cProps
import Verif.RamTrans
import Verif.RamTransProps
import Verif.Datapump
import Verif.DatapumpRW
import Verif.DatapumpProps
import Verif.AxiMatrix
import Verif.AxiMatrixLemmas
import Verif.AxiMatrixRun
import Verif.AxiMatrixProps
import Verif.ReorderBuffer
import Verif.ReorderBufferProps
import Verif.StrictOrder
import Verif.StrictOrderProps
import Verif.JoinStableProps
import Verif.ArrayItemGetter
import Verif.ArrayItemGetterProps
import Verif.LinkedListReader
import Verif.LinkedListReaderProps
import Verif.LinkedListWriter
import Verif.LinkedListWriterProps
import Verif.ArrayBuffWriter
import Verif.ArrayBuffWriterProps
import Verif.Mmu
import Verif.MmuProps
import Verif.FramePack
import Verif.FramePackProps
import Verif.SlrCrossing
import Verif.SlrCrossingProps
import Verif.Booth
import Verif.BoothProps
import Verif.CumMask
import Verif.CumMaskProps
import Verif.LocalLink
import Verif.LocalLinkProps
import Verif.FrameGen
import Verif.FrameGenProps
import Verif.AxisStoredBurst
import Verif.AxisStoredBurstProps
import Verif.FifoMeasuring
import Verif.FifoMeasuringProps
import Verif.FooterSplit
import Verif.FooterSplitLemmas
import Verif.FooterSplitProps
import Verif.FooterSplitTop
import Verif.RmiiRx
import Verif.RmiiRxProps
import Verif.AxiToAvmm
import Verif.AxiToAvmmProps
import Verif.AxiToAvmmRead
import Verif.AxiToAvmmTop
import Verif.AvmmToAxi
import Verif.AvmmToAxiProps
import Verif.StreamToMem
import Verif.StreamToMemProps
import Verif.AxiResize
import Verif.AxiResizeProps
import Verif.AvmmBuff
import Verif.AvmmBuffProps
import Verif.UsbSieRx
import Verif.UsbSieRxProps
import Verif.UsbSieRxHeader
import Verif.FrameParser
import Verif.FrameParserProps
import Verif.FrameDeparser
import Verif.FrameDeparserProps
import Verif.AxiLiteIpif
import Verif.AxiLiteIpifProps
import Verif.IpifEndpoint
import Verif.IpifEndpointProps
import Verif.CacheTagArray
import Verif.CacheTagArrayProps
import Verif.CacheWrite
import Verif.CacheWriteProps
import Verif.Buff
import Verif.BuffProps
import Verif.Mi32Bus
import Verif.Mi32BusProps
import Verif.IpifBus
import Verif.IpifBusProps
import Verif.MemEndpoint
import Verif.MemEndpointProps
import Verif.LruArray
import Verif.LruArrayProps
import Verif.Utmi
import Verif.UtmiProps
import Verif.Cuckoo
import Verif.CuckooProps
import Verif.OooOp
import Verif.OooOpProps
import Verif.ReadAgg
import Verif.ReadAggProps
import Verif.Axi4sBytes
import Verif.Axi4sBytesProps
import Verif.BusRam
import Verif.BusRamProps
import Verif.AxisFifoCopy
import Verif.AxisFifoCopyProps
import Verif.AxisFifoDrop
import Verif.AxisFifoDropProps
import Verif.EpBuffers
import Verif.EpBuffersProps
import Verif.UsbNego
import Verif.UsbNegoProps
import Verif.UsbEpFsm
import Verif.UsbEpFsmProps
import Verif.UsbEp0
import Verif.UsbEp0Props
import Verif.UsbCrc
import Verif.UsbCrcProps
import Verif.StrFormat
import Verif.StrFormatProps
import Verif.Pid
import Verif.PidProps
import Verif.FlipRam
import Verif.FlipRamProps
import Verif.PolyStr
import Verif.PolyStrProps
import Verif.Ping
import Verif.PingProps
import Verif.FrameJoinReg
import Verif.FrameJoinRegProps
import Verif.FrameAlign
import Verif.FrameAlignProps
import Verif.FrameJoinFsm
import Verif.FrameJoinFsmProps
import Verif.FrameJoin
import Verif.FrameJoinProps
import Verif.FrameJoinLive
import Verif.Axi4sEq
import Verif.Axi4sEqProps
import Verif.EthMacRx
import Verif.EthMacRxEval
import Verif.EthMacRxProps
import Verif.EthMacRxOk
import Verif.WriteAgg
import Verif.WriteAggInv
import Verif.WriteAggStep
import Verif.WriteAggProps
import Verif.StoreQueue
import Verif.StoreQueueInv
import Verif.StoreQueueProps
import Verif.Hd44780
import Verif.Hd44780Inv
import Verif.Hd44780Reach
import Verif.Hd44780Live
import Verif.Hd44780Props
import Verif.DbgMon
import Verif.DbgMonProps
import Verif.StrbStash
import Verif.StrbStashProps
import Verif.HwExc
import Verif.HwExcProps
import Verif.AddrDataAxi
import Verif.AddrDataAxiProps
import Verif.MemSpace
import Verif.MemSpaceProps
import Verif.StructRw
import Verif.StructRwProps
import Verif.AxiTester
import Verif.AxiTesterProps
import Verif.SegArr
import Verif.SegArrProps
import Verif.MatrixCfg
import Verif.MatrixCfgProps
import Verif.UsbBundle
import Verif.UsbBundleProps
import Verif.TypeSep
import Verif.TypeSepProps
import Verif.SigBuilder
import Verif.SigBuilderProps
import Verif.UsbXfer
import Verif.UsbXferProps
import Verif.PhyAgents
import Verif.PhyAgentsProps
import Verif.Dsp48
import Verif.Dsp48Props
import Verif.Dsp48Add
import Verif.Dsp48AddProps
import Verif.MdioAg
import Verif.MdioAgProps
import Verif.DpSimRam
import Verif.DpSimRamProps
import Verif.Mi32Ram
import Verif.Mi32RamProps
import Verif.SpiAg
import Verif.SpiAgProps
import Verif.UsbIpProps
import Verif.UsbIpOpProps
import Verif.AxisPrioProps
import Verif.UsbIpRecProps
import Verif.BiDirAgProps
import Verif.CacheUtilProps
import Verif.TupAgProps
import Verif.EthMacTxProps
import Verif.UsbPkt
import Verif.UsbPktProps
import Verif.UsbIpReplay
import Verif.UsbIpReplayProps
import Verif.OooHash
import Verif.OooHashProps
import Verif.OooSkip
import Verif.UlpiAg
import Verif.UlpiAgProps
import Verif.CacheRead
import Verif.CacheReadProps
import Verif.UsbVcpRom
import Verif.UsbVcpRomProps
import Verif.Segment7
import Verif.Segment7Props
import Verif.AddrProbe
import Verif.AddrProbeProps
import Verif.CompName
import Verif.CompNameProps
import Verif.UsbVer
import Verif.UsbVerProps
import Verif.UsbDescr
import Verif.UsbDescrProps
import Verif.UsbVcpDescrProps
import Verif.ForLoop
import Verif.ForLoopProps
import Verif.AxiSize
import Verif.AxiSizeProps
import Verif.AxiBld
import Verif.AxiBldProps
import Verif.CrcTab
import Verif.CrcTabProps
import Verif.AxisSof
import Verif.AxisSofProps
import Verif.NetHdr
import Verif.NetHdrProps
import Verif.UlpiCmd
import Verif.UlpiCmdProps
import Verif.ExReg
import Verif.ExRegProps
import Verif.Mmcm
import Verif.MmcmProps
import Verif.IoMon
import Verif.IoMonProps
import Verif.MemMst
import Verif.MemMstProps
import Verif.FifoCfg
import Verif.FifoCfgProps
import Verif.AxiAg
import Verif.AxiAgProps
import Verif.IpifMon
import Verif.IpifMonProps
