import Verif.Go
import Verif.Lemmas.Aac
import Verif.Lemmas.AdtsFile
import Verif.Lemmas.AnnexB
import Verif.Lemmas.AnnexUnits
import Verif.Lemmas.AvcRecord
import Verif.Lemmas.AvcSps
import Verif.Lemmas.Avcc
import Verif.Lemmas.Bits
import Verif.Lemmas.BytesBuf
import Verif.Lemmas.Codec
import Verif.Lemmas.ConvertRoom
import Verif.Lemmas.ConvertTs
import Verif.Lemmas.Cursor
import Verif.Lemmas.Decode
import Verif.Lemmas.Demuxer
import Verif.Lemmas.DemuxerAnnounce
import Verif.Lemmas.DemuxerCalls
import Verif.Lemmas.DemuxerFatal
import Verif.Lemmas.DemuxerFaults
import Verif.Lemmas.DemuxerInterleave
import Verif.Lemmas.DemuxerLanes
import Verif.Lemmas.DemuxerLoad
import Verif.Lemmas.DemuxerManual
import Verif.Lemmas.DemuxerMemory
import Verif.Lemmas.DemuxerObjects
import Verif.Lemmas.DemuxerObjectsProbe
import Verif.Lemmas.DemuxerObjectsQueue
import Verif.Lemmas.DemuxerObjectsRun
import Verif.Lemmas.DemuxerObjectsSim
import Verif.Lemmas.DemuxerOps
import Verif.Lemmas.DemuxerOrderly
import Verif.Lemmas.DemuxerPanics
import Verif.Lemmas.DemuxerPipe
import Verif.Lemmas.DemuxerPlaces
import Verif.Lemmas.DemuxerProbe
import Verif.Lemmas.DemuxerQueue
import Verif.Lemmas.DemuxerReplay
import Verif.Lemmas.DemuxerRun
import Verif.Lemmas.DemuxerSettled
import Verif.Lemmas.DemuxerSound
import Verif.Lemmas.DemuxerSource
import Verif.Lemmas.DemuxerSystem
import Verif.Lemmas.DemuxerThreads
import Verif.Lemmas.DemuxerTracks
import Verif.Lemmas.DemuxerTypes
import Verif.Lemmas.Determinism
import Verif.Lemmas.DirectBuf
import Verif.Lemmas.DirectBufHeld
import Verif.Lemmas.DirectPipe
import Verif.Lemmas.EndToEnd
import Verif.Lemmas.Float
import Verif.Lemmas.FloatSpec
import Verif.Lemmas.FlvFiles
import Verif.Lemmas.Golomb
import Verif.Lemmas.GolombIO
import Verif.Lemmas.Handler
import Verif.Lemmas.HandlerFaults
import Verif.Lemmas.HevcFields
import Verif.Lemmas.HevcRecord
import Verif.Lemmas.HevcSps
import Verif.Lemmas.KeyFrame
import Verif.Lemmas.LinkedList
import Verif.Lemmas.ListCost
import Verif.Lemmas.M4vc
import Verif.Lemmas.M4vcExact
import Verif.Lemmas.Marshal
import Verif.Lemmas.Mem
import Verif.Lemmas.MemoryUse
import Verif.Lemmas.Millis
import Verif.Lemmas.Mp4
import Verif.Lemmas.Mp4Full
import Verif.Lemmas.ObjectCount
import Verif.Lemmas.Packet
import Verif.Lemmas.PacketMemory
import Verif.Lemmas.PacketOutcome
import Verif.Lemmas.PacketPool
import Verif.Lemmas.Pieces
import Verif.Lemmas.ProbeTime
import Verif.Lemmas.RBBuf
import Verif.Lemmas.RBBufSim
import Verif.Lemmas.RBGeo
import Verif.Lemmas.RBLoad
import Verif.Lemmas.RandomAccess
import Verif.Lemmas.Rd
import Verif.Lemmas.Record
import Verif.Lemmas.RecordLists
import Verif.Lemmas.Repackage
import Verif.Lemmas.RingBuffer
import Verif.Lemmas.RingClean
import Verif.Lemmas.RingMemory
import Verif.Lemmas.RingMemoryAny
import Verif.Lemmas.ScanCost
import Verif.Lemmas.Split
import Verif.Lemmas.SpsCost
import Verif.Lemmas.SpsHead
import Verif.Lemmas.SpsInv
import Verif.Lemmas.StartCode
import Verif.Lemmas.StreamMemory
import Verif.Lemmas.Streams
import Verif.Lemmas.StreamsHeld
import Verif.Lemmas.StreamsLoad
import Verif.Lemmas.StreamsMemory
import Verif.Lemmas.ThreadLogic
import Verif.Lemmas.TrackRates
import Verif.Lemmas.Tracks
import Verif.Model.Bits
import Verif.Model.BlockBuffer
import Verif.Model.BytesBuf
import Verif.Model.Capacity
import Verif.Model.Codec
import Verif.Model.Demuxer
import Verif.Model.DemuxerLife
import Verif.Model.DemuxerObjects
import Verif.Model.DemuxerPanics
import Verif.Model.DemuxerSystem
import Verif.Model.DemuxerThreads
import Verif.Model.Float
import Verif.Model.Golomb
import Verif.Model.GolombIO
import Verif.Model.Handler
import Verif.Model.HandlerFaults
import Verif.Model.LinkedList
import Verif.Model.ListCost
import Verif.Model.ListMemory
import Verif.Model.Nal
import Verif.Model.Packet
import Verif.Model.PacketMemory
import Verif.Model.Pipelines
import Verif.Model.Record
import Verif.Model.RefCounter
import Verif.Model.RingBuffer
import Verif.Model.ScanCost
import Verif.Model.SharedCursors
import Verif.Model.Sps
import Verif.Model.SpsCost
import Verif.Model.StreamMemory
import Verif.Model.Tracks
import Verif.Model.Utils
import Verif.Props.AacDuration
import Verif.Props.AdtsFile
import Verif.Props.AnnexUnits
import Verif.Props.BitItems
import Verif.Props.BitItemsSps
import Verif.Props.Bits
import Verif.Props.BitsBytes
import Verif.Props.BitsEdges
import Verif.Props.BytesBuf
import Verif.Props.Capacity
import Verif.Props.ClockWrap
import Verif.Props.Codec
import Verif.Props.ConvertRoom
import Verif.Props.Decode
import Verif.Props.Demuxer
import Verif.Props.DemuxerAnnounce
import Verif.Props.DemuxerCases
import Verif.Props.DemuxerClose
import Verif.Props.DemuxerCloseLanes
import Verif.Props.DemuxerFatal
import Verif.Props.DemuxerFaults
import Verif.Props.DemuxerInherit
import Verif.Props.DemuxerInterleave
import Verif.Props.DemuxerLanes
import Verif.Props.DemuxerLoad
import Verif.Props.DemuxerManual
import Verif.Props.DemuxerMemory
import Verif.Props.DemuxerObjects
import Verif.Props.DemuxerOrderly
import Verif.Props.DemuxerPanics
import Verif.Props.DemuxerPipe
import Verif.Props.DemuxerProbe
import Verif.Props.DemuxerQueue
import Verif.Props.DemuxerReplay
import Verif.Props.DemuxerSettled
import Verif.Props.DemuxerSource
import Verif.Props.DemuxerSystem
import Verif.Props.DemuxerThreads
import Verif.Props.DemuxerTotal
import Verif.Props.DemuxerTypes
import Verif.Props.Determinism
import Verif.Props.DirectBuf
import Verif.Props.Durations
import Verif.Props.EndToEnd
import Verif.Props.FloatRounding
import Verif.Props.FlvFaults
import Verif.Props.FlvFiles
import Verif.Props.FlvMemory
import Verif.Props.Golomb
import Verif.Props.GolombExact
import Verif.Props.GolombIO
import Verif.Props.Handler
import Verif.Props.HandlerFaults
import Verif.Props.KeyFrameStream
import Verif.Props.LinkedList
import Verif.Props.ListCost
import Verif.Props.M4vc
import Verif.Props.Marshal
import Verif.Props.MarshalBack
import Verif.Props.MemoryUse
import Verif.Props.Mp4
import Verif.Props.Nal
import Verif.Props.Packet
import Verif.Props.PacketMemory
import Verif.Props.PacketObjects
import Verif.Props.PacketOutcome
import Verif.Props.PacketPool
import Verif.Props.PacketTime
import Verif.Props.ParseCost
import Verif.Props.Pipelines
import Verif.Props.ProbeForever
import Verif.Props.ProbeSetting
import Verif.Props.ProbeTime
import Verif.Props.RBBuf
import Verif.Props.RBEvents
import Verif.Props.RandomAccess
import Verif.Props.Record
import Verif.Props.RecordLists
import Verif.Props.RecordReuse
import Verif.Props.RefCounter
import Verif.Props.Repackage
import Verif.Props.RepoTests
import Verif.Props.RingBuffer
import Verif.Props.ScanFloor
import Verif.Props.SharedCursors
import Verif.Props.Sizes
import Verif.Props.Sps
import Verif.Props.SpsEscape
import Verif.Props.SpsExact
import Verif.Props.SpsFloor
import Verif.Props.SpsReads
import Verif.Props.StartCode
import Verif.Props.StreamMemory
import Verif.Props.TrackRates
import Verif.Props.Tracks
import Verif.Props.Utils
import Verif.Spec.Aac
import Verif.Spec.AdtsFile
import Verif.Spec.AnnexUnits
import Verif.Spec.BitItems
import Verif.Spec.Bits
import Verif.Spec.BlockBuffer
import Verif.Spec.BlockClient
import Verif.Spec.ClockWrap
import Verif.Spec.ConvertRoom
import Verif.Spec.Decode
import Verif.Spec.Demuxer
import Verif.Spec.DemuxerInterleave
import Verif.Spec.DemuxerLanes
import Verif.Spec.DemuxerLoad
import Verif.Spec.DemuxerManual
import Verif.Spec.DemuxerMemory
import Verif.Spec.DemuxerObjects
import Verif.Spec.DemuxerPanics
import Verif.Spec.DemuxerPipe
import Verif.Spec.DemuxerProbe
import Verif.Spec.DemuxerReplay
import Verif.Spec.DemuxerSettled
import Verif.Spec.DemuxerSystem
import Verif.Spec.DemuxerThreads
import Verif.Spec.DemuxerTracks
import Verif.Spec.Determinism
import Verif.Spec.EndToEnd
import Verif.Spec.Float
import Verif.Spec.FlvFiles
import Verif.Spec.GolombIO
import Verif.Spec.Handler
import Verif.Spec.HandlerFaults
import Verif.Spec.ListCost
import Verif.Spec.M4vc
import Verif.Spec.Marshal
import Verif.Spec.MemoryUse
import Verif.Spec.Mp4
import Verif.Spec.Nal
import Verif.Spec.Packet
import Verif.Spec.PacketMemory
import Verif.Spec.PacketObjects
import Verif.Spec.PacketOutcome
import Verif.Spec.PacketPool
import Verif.Spec.Pieces
import Verif.Spec.ProbeTime
import Verif.Spec.RandomAccess
import Verif.Spec.Record
import Verif.Spec.RecordLists
import Verif.Spec.RecordReuse
import Verif.Spec.Repackage
import Verif.Spec.RingBlockBuffer
import Verif.Spec.RingLoad
import Verif.Spec.RingRoom
import Verif.Spec.SharedCursors
import Verif.Spec.Sps
import Verif.Spec.SpsHead
import Verif.Spec.StreamMemory
import Verif.Spec.Streams
import Verif.Spec.StreamsClient
import Verif.Spec.Trace
import Verif.Spec.TrackRates
import Verif.Spec.Tracks
