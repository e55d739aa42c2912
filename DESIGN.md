# Formal model of lkmio/avformat in Lean 4 — design

## 1. Shape of the development

| directory (under `lean/Verif/`) | contents |
|---|---|
| `Go.lean` | the fragment of Go semantics the model uses: results (`ok`/`err`/`panic`), indexing, slicing, `copy`, big-endian accessors |
| `Model/*.lean` | the code, function by function; each definition cites file and lines in `/repo` |
| `Spec/*.lean` | small specifications (bit strings, NAL unit lists, FIFO lists, SPS syntax, ...) that mention no model function |
| `Lemmas/*.lean` | helper lemmas and invariants |
| `Props/*.lean` | the property theorems, named `Cnn_...`, each with a non-vacuity `example`; disproofs of false claims are named `Cnn_..._violated` |

A property that is false of the code keeps its full statement in `properties.jsonl`; the theorem that
is proved is called `..._partial`, and a theorem `..._violated` proves the negation of the full claim
on a concrete witness.

## 2. Go semantics chosen

* A Go function result is `Go α = ok a | err msg | panic`. `panic` covers index/slice out of range, nil
  dereference, failed `utils.Assert` and explicit `panic(...)`.  Nothing is totalised silently: every index and
  slice expression goes through an operation that yields `panic` when Go would.
* `byte` is `BitVec 8`, `uint16/32/64` and `uint` are `BitVec 16/32/64`. `int` is `Int`; where the
  property is about overflow (byte cursor, random range) 64-bit wrap-around is modelled explicitly (`wrap64`).
* A slice that is only read is a `List`; its capacity is taken equal to its length (stated where it matters: a slice
  expression `s[a:b]` with `len < b <= cap` would succeed in Go and is a panic in the model). `Model/Capacity` and C91 treat the
  four functions where that happens with a caller's slice; everywhere else `b` has been compared to the length before.
* A slice that is written through is threaded as state (`dst` in, `dst` out). Where aliasing is the property (block
  buffers, linked list, packet pool, streams) there is an explicit heap.
* Goroutines: only `ReferenceCounter` is meant for concurrent use; it is modelled as interleavings of atomic steps.
* External nondeterminism (`sort.Slice` on equal keys, map iteration order, `sync.Pool.Get`, `rand.Intn`) is a
  relation or a universally quantified oracle, never a fixed choice.
* `float64` is modelled as exact rational arithmetic followed by round-to-nearest-even to 53 bits (no overflow or
  subnormals, which the argument ranges exclude: proved in C96, against the IEEE formats of `Spec/Float`).
* Loops are recursive functions with a termination proof (well-founded on the remaining input), not fuel, so
  termination of each modelled loop is itself checked.

## 3. Plan per property

Every property below is planned as a theorem; "violated" means the unchanged code breaks the full claim.

| id | what is modelled | how it is proved |
|---|---|---|
| C01–C04 | `ReadBits`, `WriteBits`, `BitsReader/Writer` on byte lists | bit-string specification (`bitAt`), induction on the width, then on field lists |
| C05–C10 | `bytesBuffer`, `bytesReader`, `bytesWriter` with 64-bit offsets | step function over operations, invariant over histories; big-endian spec by list of bytes; C10 violated for negative sizes |
| C11–C13 | `GolombBitReader` as byte stream + residual byte | abstraction to the remaining bit list; induction on width / prefix zeros; C13 violated for negatives |
| C14 | `PutUint24/Uint24` | bit-vector extensionality |
| C15, C16 | ring buffer and queue arrays with head/tail/size | refinement to `List` by an abstraction function and invariant, lifted to histories |
| C17 | linked list on an explicit node heap | representation invariant "chain of size nodes, tail pointer, anything behind it"; refinement to `List` |
| C18 | atomic add on a 32-bit counter, interleavings of goroutine programs | invariant over schedules |
| C19–C21 | `DirectBlockBuffer` on a heap of arrays | ghost history; invariant relating blocks to memory; C21 violated |
| C22, C23 | `RBBlockBuffer` on a heap of arrays | invariant on block layout (unwrapped / wrapped); C23 violated twice, partial under exact side conditions and under a live-bytes bound |
| C24, C25 | `StreamsBuffer`, `DirectDataPipeline` | projection per stream; refinement to a byte list |
| C26–C31 | start code search and NAL splitting | first-occurrence specification; strong induction on the remaining length |
| C32–C40 | AVCC/Annex B conversions and parameter set extraction | specification by lists of NAL units; induction on lists / remaining input; C34, C36, C38 violated at the edges; the outcome on every byte string is in `C30_exact`, `C34_exact`, `C36_exact`, `C38_exact`, `C39_exact`, `C40_exact` |
| C41–C46 | configuration records | grammar of the record as an encoder over lists; C44 violated |
| C47 | `bytes.Replace(00 00 03 -> 00 00)` | induction over the zero-run state of the escaper |
| C48–C52 | both SPS parsers | syntax tree + serialiser written from the standard, parser inverts it; totality by induction; C50 violated |
| C53–C56 | AAC helpers, random range | bit arithmetic; C55 violated |
| C57 | `ConvertTs` with a binary64 rounding model | monotonicity and error bound of rounding |
| C58 | packet pool with arbitrary `Get` choices | invariant over histories |
| C59, C60 | tracks, muxer, buffer indices | invariant over histories |
| C61–C67 | `BaseDemuxer` as a state machine with a callback/pipeline trace | invariants over histories; C62 violated, partial with in-order first packets; C62, C65 exact for all histories with lanes (`Spec/DemuxerLanes.lean`) in place of tracks |
| C68, C69 | packet conversion caches, codec data | composition of the above |
| C70, C71 | HEVC record header, its Annex B form | bit ranges of the standard; composition |
| C72, C73 | `BaseDemuxer` on arbitrary payloads | induction over histories; predicate carried by every track; C72 violated; `C72_exact` says which histories panic |
| C74, C75 | `TryCompleteProbe`, `OnNew*Track` | exact effect in every reachable state (C74: `C74_exact`); C74 and part of C75 violated |
| C76, C77 | `handler.go`, `String` methods | names are injective and equal to a separate table of codes and names; contents of the files after any session, by induction over the calls; C77 violated |
| C78 | `demuxer.go` on `streams_buffer.go` over `buffer_rb.go` | the demuxer, the rings and the memory run together; invariant: each ring holds exactly the blocks of the packets that are queued (`C64_queued_blocks`), rings lie in separate memory, and under light load a block is not overwritten while it is held (`RBBuf.Load`); with announced tracks for orderly histories (`C78_orderly`); `DirectDataPipeline` violated |
| C79 | `demuxer.go`: `Close`, setters | a layer over the demuxer with handler and callback set or nil; when calls panic, from C61 and the queues (C62) |
| C80 | `ComputeAACFrameDuration` | float32 as rationals with rounding; violated |
| C81 | `demuxer.go` with `*AVPacket`s of the pool in `LinkedList`s | simulation: rows (linked list, pointers, values); the pool invariant of C58 with the demuxer's packets and those of others; C17 for the lists |
| C82 | `AvailableBytes`, `Capacity` | case split of `Alloc` on the well-formed states of C19; violated for the ring and the queue |
| C83 | `ringBuffer`, `Queue`: backing array | invariant "slots outside the window are zero" beside the simulation of C15/C16; violated after `PopBack`, `Clear` |
| C84 | `BitsReader.SafeRead` | a stub; violated |
| C85 | `demuxer.go` `OnVideoPacket`: sets of an older track | case split on the first track of the codec and on its parsing, on reachable states |
| C86 | `ReadBytes`, `WriteBytes`, `Seek` of the bit reader and writer | bit strings of the bytes; violated between byte boundaries, exact there too |
| C87 | `ConvertDts`, `ConvertPts`, `GetDuration`, `GetPtsDtsDelta` | from C57 |
| C88 | `Create…StreamFromKeyFrame`, `NewCodecDataFrom…Record`, `IsKeyFrame` (as C28) | composition of C39/C40/C69 with the exact outcome on every payload |
| C89 | `MinInt`, `MaxInt` | case split |
| C90 | stream creation on an explicit heap | refinement of the value-level functions by a memory monad; ownership invariant over any run |
| C91 | slices with spare capacity (`Model/Capacity`) | the functions again over `data ++ spare`; equal unless the exact one panics; violated there |
| C92 | `ReadExponentialGolombCode`, `ReadSE` on any bit string | case split on the run of zeros; violated for 33 zeros |
| C93 | both `ParseSPS` on any payload | `RdInv` (what a successful run has read), the converse of `Parses`; violated for values above the ranges |
| C94 | pipeline, demuxer, packet conversion and file handler together | composition of C78, C63, C73, C68 and C77; induction over the history for which frames were taken |
| C95 | parameter set lists of the HEVC record, with their memory | closed form by induction over the sets; simulation between an explicit heap and the value model |
| C96 | Floating point | Rounding of the model shown to be the nearest number of the format; ranges of all intermediate values |
| C97 | Shared packet pool | Simulation of C81 with a frame (packets of the other demuxers untouched), induction over the interleaving |
| C98 | `handler.go` with failing `OpenFile` and `Write` | the run up to the failure is a run of C77's model; the state invariant of C77 for the partial write |
| C99 | `OnNewVideoTrack`/`OnNewAudioTrack`/`On*Packet` to the files, FLV with records | C63 (lanes that are settled when probing ends), C75, C68, C69, C77 joined; induction over the history for what was given since a track was there; on a `StreamsBuffer` with memory by `C78_orderly` (`C99_flv_memory`) |
| C100 | all operations of the demuxer with the state at a panic and the deferred functions | the steps of every function in a monad with a state at a panic; equality with the first model; a history without panics by replacing what panicked |
| C101 | handler and callback as any functions that may panic; all operations | small steps that do not depend on the handler; invariants (at most once, releases as a grammar, announcements as a prefix) |
| C102 | handler as any function that may panic or call Close; all operations | simulation: the run with panics is a beginning of the run without; at most one handler call per operation after probing |
| C103 | all operations with and without AutoFree | the map that removes the releases commutes with every operation |
| C104 | DirectBlockBuffer, RBBlockBuffer, Queue, DirectDataPipeline: length of the array after any history | simulation with the specifications; for the ring an invariant on where the first block lies once the capacity is reduced |
| C105 | BaseDemuxer with StreamsBuffer: sizes of the arrays, delivered bytes, number of queued packets | C78 with the bound on the queue derived from C62 (lanes) and from the list of payloads |
| C106 | BaseDemuxer with tracks from packets: times of the packets given against the end of probing; StreamsBuffer and file handler under conditions on the input only | C65 with ConvertTs from 90000 to 1000 being exact truncation (C57), added up along the packets of a buffer; invariant over histories |
| C107 | MP4ExtraData, the two record parsers, AnnexBPacket2AVCC and AVCCPacket2AnnexB composed | composition of C69, C36 and C68; induction on the number of receivers |
| C108 | C94 continued: the units in the file, and which parameter sets are in force at which picture | relational invariant between a decoder of the stream and a decoder of the file, by induction on the frames |
| C109 | C94 continued for AAC: whether the frames of a track can be told from its file | unique decodability by well-founded induction on the byte string; two runs with the same file |
| C110 | steps of `processBufferedPacket` in the linked lists | instrumented copies of Get and Remove with erasure theorems; representation invariant of C17; simulation of C81; families of runs by induction |
| C111 | order of the delivered packets over all tracks | from the exact description of C62 in lanes; induction on the packets after probing |
| C112 | C94 and C99 continued: parameter sets of a decoder that starts in the middle of the file | sets only grow while decoding; the units of each frame in the file exactly, by induction on the frames; first picture of a frame |
| C113 | two runs of the demuxer with the same operations and different choices of the runtime | simulation between the two runs, exact until probing ends and up to a permutation of one flush afterwards; lookups in the map do not depend on its order if values are distinct; sorted permutations with distinct keys are equal |
| C114 | steps of the scanning functions and of the SPS parsers; bytes.Replace and the stores into results are not counted | counting copies of the functions; each bit read pays for three steps, so a loop that reads in every round pays for itself; each search ends where the next begins |
| C115 | durations of delivered packets of BaseDemuxer with tracks from packets | C62 (each packet but the last is delivered once with the difference to the next) and telescoping; exact truncation of ConvertTs (C57) |
| C116 | calculatePCMFrequency and calculateG726BitRate at the end of probing, over whole histories | invariant over the small steps: tracks after completion are the tuned tracks of the queues, which are the lanes of C62; exact milliseconds of C57 |
| C117 | FreePacket, NewAudioPacket, NewVideoPacket and all operations of any number of demuxers that share the pool, with pointers and linked lists | counting: objects outside the pool minus packets of others minus queued packets is constant over every step; with the distinctness of C97 this makes the places a permutation of all objects |
| C118 | Unmarshal of AVC and HEVC records on a receiver that has been used | the invariant of C95 carried over several records; induction over the sequence |
| C119 | both packet conversions and the three functions they use, with slices as references into one memory | refinement with a frame condition (only bytes of the buffer change), induction over the unread source |
| C120 | AVCCPacket2AnnexB with all its branches and panics | exact characterisation: inductive specification of the result, soundness by C68, completeness by counting what the loop writes |
| C121 | PacketPool, NewAudioPacket, NewVideoPacket, FreePacket and the packet accesses of BaseDemuxer under any interleaving | small-step semantics with a step for each access; separation of packets between goroutines as an invariant; program logic for one goroutine |
| C122 | avc.Mp4ToAnnexB, copyNalU on bytesWriter without enough room | conversion as a list of pieces; induction over the units with the state of the writer |
| C123 | AVCC2AnnexB, copyNalUWithBytes, hevc.Mp4ToAnnexB without enough room | the destination as a function of the bytes written so far; induction over the units |
| C124 | Marshal of both records on lists that are not in order or do not fit | induction over the sets up to the first that has no unit; the writer as a cursor |
| C125 | the demuxer with time stamps that are taken modulo m | from the exact delivery (C62) and the end of probing (C65); bounds on truncated milliseconds of any sign |
| C126 | `bufio/golomb_reader.go` with any `io.Reader`, and the state after errors | events (bits and errors) that are still to come; simulation of the reader on bytes (`Model/Golomb`) operation by operation |
| C127 | `bufio` cursors on memory that is shared, and `append` to the slices that they return | byte-wise last-write semantics of a memory of numbered arrays; induction over histories |
| C128 | `bufio` bit reader, bit writer and Golomb reader on the same data | bit lists; induction over the items |

No property is out of reach of a model altogether; performance, garbage collection and real I/O (`OnUnpackStream2FileHandler`
writing files, logging) are not claimed.

## 4. Trusted base

* Lean 4.33.0 kernel. Axioms used: `propext`, `Classical.choice`, `Quot.sound`, nothing else. `AXIOMS.md` (generated by
  `tools/axioms.py` from `#print axioms`) lists them for every theorem of `MANIFEST.json`. No axiom of our own, no `sorry`, no
  `native_decide`/`bv_decide`. `decide +kernel` is used for concrete witnesses: the kernel evaluates the decision procedure.
* The reading of the Go source: the model is written by hand from the text of `/repo`; nothing executes the Go code.
  `tools/coverage.py` lists the functions of `/repo` that no definition cites.
* The Go library functions as described in section 2 (`encoding/binary`, `copy`, `append`, `bytes.Replace`,
  `bytes.Reader`, `sync/atomic`, `sync.Pool`, `sort.Slice`, `math/rand`) and below.
* The specifications in `Spec/*.lean`, which say what the English properties mean. The SPS and record grammars were written
  from the standards as known to the author, not checked against a copy of them.

## 5. What is modelled, and where the model is simpler than the code

| part of `/repo` | model | simplifications |
|---|---|---|
| `bufio/bits_*.go` | `Model/Bits` | none (byte lists, `uint64` values) |
| `bufio/bytes_*.go` | `Model/BytesBuf` | slices handed out are copies in the model; aliasing of `ReadBytes` results with the buffer only in `Model/StreamMemory` |
| `bufio/golomb_reader.go` | `Model/Golomb` | the `io.Reader` is a `bytes.Reader`: a read returns one byte or EOF |
| `bufio/golomb_reader.go` on any `io.Reader` | `Model/GolombIO` | the answers of the reader are a list, then `io.EOF`; a `Read` does not panic |
| `collections/ring_buffer.go`, `queue.go` | `Model/RingBuffer` | `T`'s zero value is `none` |
| `collections/linked_list.go` | `Model/LinkedList` | none (explicit node heap) |
| `collections/reference_counter.go` | `Model/RefCounter` | sequentially consistent atomics; 32-bit wrap-around modelled |
| `collections/buffer_direct.go`, `buffer_rb.go` | `Model/BlockBuffer` | heap of arrays, `append`/`make` always give a fresh array; capacity of a fetched slice taken as its length |
| `streams_buffer.go`, `direct_pipeline.go` | `Model/Pipelines` | none beyond the block buffers |
| `avc/util.go`, `hevc/util.go` | `Model/Nal` | slices of callers have `cap = len`; otherwise see C91 |
| `avc/mp4.go`, `hevc/mp4.go` | `Model/Record` | none |
| `avc/sps.go`, `hevc/sps.go` | `Model/Sps` | reader errors are one error; fields that nothing in `/repo` reads are dropped where the comment says so |
| `utils/aac_util.go`, `random_util.go`, `packet_utils.go:9` | `Model/Utils`, `Model/Float` | `float64` as exact arithmetic followed by rounding; `rand.Intn` an arbitrary choice in range |
| `codec_paraments.go`, `video_stream.go` | `Model/Codec` | none |
| `demuxer.go:79-301, 434-514` with the state at a panic and deferred functions | `Model/DemuxerPanics` | handler and callback are functions of the calls before that say whether they panic; the pipeline and the packet pool do not panic |
| `createVideoTrack`, `createAudioTrack`, `video_stream.go:12-39` and what they call, with slices as references | `Model/StreamMemory` | `append` and `make` give a fresh array; nil extra data of a video track is an empty slice; the fields of a record that are not slices come from `Model/Record` |
| `packet_utils.go:14-96`, `AVCC2AnnexB`, `AnnexB2AVCC`, `hevc.Mp4ToAnnexB` with slices as references | `Model/PacketMemory` | the start codes are constants; `OnBufferAlloc` is a function of size and memory; capacity = length; `append` in `mix` gives a fresh array |
| `av_packet.go`, `packet_utils.go` | `Model/Packet` | the pool is an arbitrary chooser among freed objects or a new one |
| `tracks.go`, `muxer.go` | `Model/Tracks` | none |
| `demuxer.go` | `Model/Demuxer` | one goroutine; the handler and the pipeline are a trace of calls (`Call`), with an oracle for the map iteration order and for the result of `sort.Slice` on equal keys |
| `demuxer.go`, packet objects | `Model/DemuxerObjects` | pointers are numbers; others act at the start of an operation and in calls of the handler; the parts that do not touch packets are those of `Model/Demuxer` |
| `demuxer.go`, goroutines | `Model/DemuxerThreads` | a step for each field assignment, packet read, `Get` and `Put`; queues are lists (C17, C81); memory is sequentially consistent, which Go grants to programs without data races (C121_race_free) |
| `collections/linked_list.go`, `demuxer.go:254-290`, steps | `Model/ListCost` | copies with a counter of followed `next` pointers; erasing it gives `Model/LinkedList` |
| `handler.go`, `utils/av_util.go`, `AVCodecID.String` | `Model/Handler` | files are byte lists with permission bits; opening and writing do not fail; no umask; nobody else touches the files; what is printed is dropped |

Not modelled: printing and logging, errors of the file system other than failing `OpenFile` and `Write` (C98), `avc/avc.go`, `hevc/hevc.go` constants
that nothing uses, the `codec_id.go` table beyond the codecs that the code branches on, allocation failure, the garbage collector, data races in types that
are not meant for concurrent use, and a handler that calls back into the demuxer other than to close it (C102).

`Props/RepoTests.lean` runs the repository's own tests (those without input files) on the model. Their sample records give 1920x1080 and
1280x720, and the AVC sample a frame rate of 174762 instead of 25 (C50).

The demuxer model starts from a demuxer with a handler set and probing enabled; C79 puts setting handlers and `Close` on top of it. `onPreprocessPacket` is an arbitrary function of the oracle;
it may change any packet field, and the theorems say which of its effects they exclude. Memory of the packet data (`C64`) is
judged by a separate pipeline specification (`Spec/DemuxerPipe.lean`) that replays the trace of calls; in `C78` the caller, the
demuxer, the rings and the memory run together (`Spec/DemuxerMemory.lean`).

`Spec/Sps.lean` has two conditions on a parameter set: `Ok`, the ranges of the standard, under which C48 and C51 say what is reported, and
`Loose`, values that the syntax can write at all (and the reserved types and bits), which is what C93 finds in every accepted payload.

## 6. Disagreements found between the code and the properties

Each is proved of the model by a theorem named `..._violated` (or the theorem given).

| where | what | theorem |
|---|---|---|
| `bufio/bits_reader.go:41`, `bits_writer.go:40` | between byte boundaries `ReadBytes` returns bits again that were read, `WriteBytes` destroys bits that were written | `C86_violated` |
| `bufio/bytes_reader.go:68` | `ReadBytes` with a negative size panics instead of reporting an error | `C10_readBytes_violated` |
| `bufio/golomb_reader.go:79` | `ReadSE` divides an unsigned number: negative values come out as `2^63 + v` | `C13_se_violated` |
| `collections/buffer_direct.go:123` | the buffer returned by `SplitOff` starts at the old offset inside memory that was already re-sliced: negative `AvailableBytes`, panic on the first `Alloc`; the ring buffer's `SplitOff` hands out all of its memory | `C21_split_off_violated`, `C21_ring_split_off_violated` |
| `collections/buffer_rb.go:24` | `Alloc` overwrites fetched, not yet popped blocks: when the ring is exactly full after wrapping, and after a second growth before the blocks discarded by the first were popped; it also does not look at `sealed` | `C23_fetched_blocks_immutable_violated` |
| `collections/queue.go` | `Capacity()` of a `Queue` is always 0 | `C15_capacity_zero` |
| `collections/linked_list.go:29` | a negative index passes the bound check: stale reads and corruption | `C17_negative_index_*` |
| `avc/util.go:183` | an empty unit between two start codes is not skipped as the comment says: a byte of the next start code becomes data | `C34_empty_unit_violated` |
| `packet_utils.go:77` | `AnnexBPacket2AVCC` reserves 256 bytes: more than 256 short start codes overrun it | `C36_claim_violated` |
| `avc/util.go:255` | `M4VCExtraDataToAnnexB` drops the PPS when there are two SPS, panics on a truncated SPS, and fails for 131 or more PPS | `C38_two_sps_violated`, `C38_truncated_violated`, `C38_too_many`; exactly: `C38_exact`, `C38_panics_iff`, `C38_many_sps` |
| `avc/util.go:327`, `hevc/util.go:90` | an empty NAL unit makes the parameter set extraction panic | `C39_empty_unit_violated` |
| `avc/mp4.go:42` | `Marshal` writes the SPS count into 5 bits and fails above 1024 bytes; `MP4ExtraData` is then silently empty | `C41_32_sps_violated`, `C41_too_big`, `C69_*` |
| `avc/mp4.go:96`, `hevc/mp4.go:133` | `hevc` stores the length size itself in `LengthSizeMinusOne`, `avc` the field as named | `C42_record`, `C70_header_fields` |
| `hevc/mp4.go:192` | `r.SPSList = append(r.PPSList, nalu)`: all sequence parameter sets but the last are lost, and PPS that came first appear among them | `C44_two_sps_violated`, `C45_pps_among_sps_violated` |
| `codec_paraments.go:181` | `NewHEVCCodecData` leaves the length size 0: H.265 AVCC packets panic | `C68_h265_new_violated` |
| `packet_utils.go:14` | an AVCC packet of a stream without codec parameters panics | `C68_claim_violated` |
| `avc/sps.go:29` | emulation prevention bytes are not removed; profiles 128, 134, 135, 138, 139 are not treated as high; 8 instead of 12 scaling lists are read for 4:4:4; crop units fixed at 2 | `C48_*_violated`, `C50_claim_violated` |
| `hevc/sps.go:32` | conformance window ignored: the size is the coded one | stated in `C51` |
| `utils/aac_util.go:183` | `GetSampleRateIndex` looks the rate up as if it were an index | `C55_claim_violated` |
| `utils/aac_util.go:187` | `SetADtsHeader` stores `aot & 3` where the profile is the object type minus one | `C53_*` |
| `packet_utils.go:9` | `ConvertTs` goes through `float64`: the first error bound of C57 was false for large values | `C57_claim_first_version` |
| `av_packet.go:118` | freeing a packet twice hands the same object out twice | `C58_double_free` |
| `demuxer.go:254` | `Packets` is indexed by arrival of first packets, not by track: queues are mixed when a later track comes first; packets of one track are then withheld and durations wrong | `C62_claim_violated`, `C65_claim_violated` |
| `demuxer.go:292` | after a delivery the oldest block of the buffer is discarded; with decreasing DTS it is not the packet's own. The bytes are safe all the same: nothing is written during the flush, and after it the buffer holds exactly the blocks of the queued packets (`C64_queued_blocks`, `C78_delivered_bytes`) | `C64_claim_violated` |
| `demuxer.go:256-262`, `demuxer.go:292` | queues are made in the order of first packets, not of tracks: if a track that was announced first has no packet before probing ends, packets of the second come in another order, and the block discarded is another packet's although DTS increase | `C63_order_lost`, `C64_orderly_needed`, `C99_order_lost` |
| `demuxer.go:79`, `134` | two `OnNew*Track` calls for one buffer make the packet lookup depend on map order | `C66_any_input_false` |
| `demuxer.go:364` | above 96 bytes per ms the sample size is stored as the sample rate | `C67_claim_violated` |
| `demuxer.go:171` | key frames shorter than three bytes, with an empty NAL unit, or with the SPS before a trailing start code make the demuxer panic | `C72_claim_violated`, `C72_bad_frames` |
| `demuxer.go:59` | a format name other than flv, jt1078, ps, ts panics at the first audio packet; tracks announced without the data their codec needs panic | `C72_bad_tracks` |
| `demuxer.go:492` | `TryCompleteProbe` ends probing while an announced PCM or G.726 track has no packet: its rate is never measured | `C74_claim_violated` |
| `demuxer.go:189` | tracks made from packets are not checked for their type: two audio tracks in PS or FLV | `C75_claim_violated` |
| `handler.go:59` | files are opened without `O_TRUNC`: a longer old file keeps its end; the permissions 132 are decimal (0o204) | `C77_old_file_violated`, `C77_mode_violated` |
| `handler.go:77` | the parameter sets of AVCC key packets are written although `AVCCPacket2AnnexB` already put them in front | `C77_claim_violated` |
| `direct_pipeline.go:28` | `Fetch` gives the memory that the next `Write` uses; the demuxer delivers a packet only when the next one has been written, so the handler sees the next packet's bytes | `C78_direct_claim_violated` |
| `demuxer.go:482` | after `Close` a packet of a known buffer, and the end of probing, are calls of a nil handler | `C79_claim_violated` |
| `utils/aac_util.go:268` | the quotient is upside down: frames per second instead of seconds per frame | `C80_claim_violated` |
| `demuxer.go:79-90`, `134-144` | nothing is deferred: when an announcement panics its extra data stays in the pipeline | `C100_claim_violated` |
| `demuxer.go:439-449` | `Completed` is set before the tracks are announced: after a recovered panic of `OnNewTrack` packets of tracks come that were never announced, and the queues keep what they held for ever | `C101_order_violated`, `C101_stuck` |
| `demuxer.go:452-475` | the queues are emptied before their packets are delivered: a recovered panic at one packet loses those after it | `C101_lost_violated` |
| `demuxer.go:244-248` | `ok = true` comes before the preprocess callback: when it panics the block stays | `C101_callback_violated` |
| `demuxer.go:445-475`, `482-485` | `Close` in `OnNewTrack`, or in `OnPacket` while the end of probing still delivers, makes the next call one of a nil handler | `C102_claim_violated` |
| `demuxer.go:299`, `av_packet.go:118` | with `AutoFree` a handler that frees its packet puts it into the pool twice; two later packets share an object and one of them is lost (a handler's fault, but nothing detects it); the object may also turn up in another demuxer, which then delivers data of the wrong stream | `C81_any_handler_violated`, `C97_rogue_handler` |
| `collections/buffer_rb.go:122-137` | `AvailableBytes` of the ring is always 0 (the computation is commented out), `Data` always nil | `C82_ring_available_violated` |
| `collections/buffer_direct.go:79-86` | `Pop` frees memory only when no block is left: a buffer that always holds a block grows without limit | `C104_direct_violated` |
| `collections/queue.go:53-62` | `NewQueue` does not set `capacity`: `Capacity()` is always 0 | `C82_queue_capacity_violated` |
| `collections/queue.go:31-42`, `collections/ring_buffer.go:107-111` | `PopBack` and `Clear` leave references to the removed elements in the array | `C83_popBack_violated`, `C83_clear_violated` |
| `packet_utils.go:71,92`, `bufio/bits_reader.go:44`, `avc/util.go:286` | `s[a:b]` is checked against the capacity: with a buffer from a pool a conversion that does not fit ends in stale bytes instead of a panic | `C91_to_avcc_violated`, `C91_claim_violated`, `C91_m4vc_violated` |
| `bufio/golomb_reader.go:68` | after 32 zeros the next bit is taken for the marker whatever it is | `C92_claim_violated` |
| `avc/sps.go:29`, `hevc/sps.go:32` | nothing checks the values read: sizes of 2^32 macroblocks, reserved picture order count types and reserved bits are accepted | `C93_avc_violated`, `C93_hevc_violated`; exactly: `C93_avc_partial`, `C93_hevc_partial` |
| `demuxer.go:282-285` | each duration is cut to whole milliseconds before they are added: probing lasts up to 1 ms per packet longer than asked, and forever (with all packets kept) if packets come less than 1 ms apart | `C106_claim_violated`, `C106_unbounded` |
| `av_packet.go:GetDuration` | durations in milliseconds are cut one by one: added up they lag behind without bound (29.97 fps in TS: 11 ms each second) | `C115_drift`, `C115_claim_violated` |
| `bufio/golomb_reader.go` | the count that `R.Read` returns is not looked at: a last byte that comes with `io.EOF` is dropped, and after a read of no byte without an error the old byte is delivered again (both are allowed to an `io.Reader`; `bytes.Reader` does neither) | `C126_claim_violated`, `C126_last_byte_lost`, `C126_byte_repeated` |
| `demuxer.go:272-285`, `468-471` | time stamps are not unwrapped: across a restart of the clock a duration is a whole turn too small; if it happens while probing, probing lasts a turn longer (26.5 hours at 33 bits and 90 kHz), and later packets are delivered before earlier ones | `C125_claim_violated`, `C125_long_probe`, `C125_restart` |
| avc/mp4.go:42-94, hevc/mp4.go:75-131 | `Marshal` panics on an SPS of fewer than four bytes, on an empty set, on sets of up to three zero bytes and (HEVC) on a bare start code, instead of returning an error | `C124_claim_violated` |
| avc/util.go:122, hevc/util.go:81 | `AVCC2AnnexB` and `Mp4ToAnnexB` cut the last unit if the destination is too short and return a count larger than the destination | `C123_cut`, `C123_claim_violated` |
| `avc/util.go:126-145` | `copyNalU` drops the errors of the writer: if it is too small, pieces are left out silently, and a unit without its start code becomes the end of the unit before | `C122_glued`, `C122_claim_violated` |
| `packet_utils.go:AVCCPacket2AnnexB` | H.265 packets with lengths of 1, 2 or 3 bytes and more than 85, 128 or 256 units panic: the buffer has only 256 bytes for longer start codes | `C120_h265_partial`, `C120_claim_violated` |
| `avc/mp4.go`, `hevc/mp4.go:Unmarshal` | appends to the lists of its receiver: a second record read into the same variable is checked, and listed, together with the first | `C118_stale_accepted`, `C118_stale_pps`, `C118_claim_violated` |
| `demuxer.go:350-374` | the duration is cut to whole milliseconds before the division, and above 96 bytes per ms the sample size is stored: PCM at 48 kHz in packets of 1024 samples is reported with 16 samples per second | `C116_claim_violated` |
| `packet_utils.go:46-48, 69` | the parameter sets are put in front of AVCC key frames even if these have them: they double with each conversion to AVCC and back | `C107_sets_violated` |
| `packet_utils.go:20-33`, `demuxer.go` | the codec data of a track is never renewed: after a change of the parameter sets a key frame without sets gets the old ones | `C108_claim_violated` |
| `packet_utils.go:22` | only the first header byte is compared: a key frame that begins with an SPS but has no PPS gets no sets in front of it; a decoder cannot start there | `C112_claim_violated` |
| `hevc/mp4.go:192` | with PPS arrays in front of the SPS array the SPS can be lost (C95), and then no key frame of an FLV H.265 track can be started with | `C112_flv_hevc_violated` |
| `handler.go:86-88`, `video_stream.go:147-176` | AAC without ADTS headers (FLV) is written as it is: frames cannot be told from the file | `C109_claim_violated` |
| `demuxer.go:272-285`, `collections/linked_list.go:60-73` | while probing every packet walks through the queue once per packet in it: quadratic per packet, cubic in sum, unbounded if DTS stands still | `C110_still`, `C110_claim_violated` |
| `demuxer.go:272-280` | a packet is delivered when the next one of its track comes, so packets of a sparse track come after packets of other tracks that begin later | `C111_claim_violated` |
| `demuxer.go:326-334`, `468-471` | `sort.Slice` is not stable, and the map of buffers is searched by value: what comes first of tracks that begin at the same time, and which of two tracks on one buffer gets a packet, is left to the runtime | `C113_claim_violated`, `C113_shared_violated` |
| `bufio/bits_reader.go:47-49` | `SafeRead` is a stub: always 0, never an error, the reader does not move | `C84_safeRead_value_violated` |
