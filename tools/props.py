#!/usr/bin/env python3
"""Writes /verif/properties.jsonl.  The property list is kept here so that it is easy to review and append to."""
import json
P = []
def p(title, statement, quantifier, why, anchors):
    P.append(dict(id="C%02d" % (len(P) + 1), title=title, statement=statement,
                  quantifier=quantifier, why_tests_cant=why, anchors=anchors))

# ---------------------------------------------------------------- bufio
p("WriteBits then ReadBits returns the value written",
  "For every byte slice, every start bit and every width up to 64 that fit in it, ReadBits(data,start,n) after WriteBits(data,start,n,v) returns the low n bits of v.",
  "all byte slices of any length, all start bits, all widths 0..64 with start+n inside the slice, all 64-bit values",
  "The domain is every buffer length, offset alignment and 64-bit value; a test samples a few alignments.",
  ["bufio/bits_writer.go:WriteBits", "bufio/bits_reader.go:ReadBits"])
p("WriteBits touches only the addressed bits",
  "WriteBits never changes the length of the slice, never changes any bit outside [start,start+n), and with a non-negative start bit never panics even if the range runs off the end (the excess is dropped). A field that begins up to seven bits in front of the data loses these bits; WriteBits panics exactly if the start bit is -8 or less and the width is positive.",
  "all slices, all non-negative start bits, all widths (including those running past the end), all values, all other bit positions",
  "A frame condition ranges over every other bit of every buffer.",
  ["bufio/bits_writer.go:WriteBits"])
p("BitsWriter/BitsReader field sequences round-trip",
  "Writing any list of (width,value) fields one after another with BitsWriter.Write and reading them back with BitsReader.Read with the same widths returns the values, when the buffer is long enough.",
  "all finite field lists with widths 0..64, all starting offsets, all initial buffer contents",
  "Induction over arbitrarily long field lists with arbitrary bit alignment at each step.",
  ["bufio/bits_writer.go:BitsWriter.Write", "bufio/bits_reader.go:BitsReader.Read"])
p("ReadBits reads MSB first and stops at the end of the data",
  "ReadBits(data,start,n) is the big-endian number formed by the bits of data from position start, using only the bits that exist when the range runs past the end, truncated to 64 bits, and it never panics for a non-negative start. Up to seven bits in front of the data are zeros; ReadBits panics exactly if the start bit is -8 or less and the width is positive.",
  "all slices, all non-negative start bits, all widths",
  "Every width, every alignment and every overrun must agree with the bit-string reading.",
  ["bufio/bits_reader.go:ReadBits"])
p("Byte cursor stays inside its buffer",
  "After any sequence of Seek, SeekBack, typed reads, typed writes, Clear and Reset with any int arguments, Offset() is between 0 and the buffer length; this holds with 64-bit wrap-around arithmetic.",
  "all buffers, all finite operation histories, all 64-bit signed arguments including those that overflow",
  "Unbounded histories and the full 64-bit argument range, including overflowing sums.",
  ["bufio/bytes_buffer.go:peekN", "bufio/bytes_buffer.go:Seek", "bufio/bytes_buffer.go:SeekBack"])
p("A failed cursor operation has no effect",
  "If Seek, SeekBack, a typed read or a typed write returns an error, the offset and the buffer contents are unchanged; it returns an error exactly when the target offset is outside [0,len].",
  "all buffers, offsets, operations and arguments",
  "Must hold at every state and argument, in particular at each boundary.",
  ["bufio/bytes_buffer.go:peekN", "bufio/bytes_reader.go", "bufio/bytes_wirter.go"])
p("Typed reads are big-endian and advance by their width",
  "ReadUint8/16/24/32/64 and ReadBytes(n>=0) return the big-endian value (or the bytes) of exactly the next k bytes and advance by k; they fail iff fewer than k bytes remain.",
  "all buffers, all offsets, all read kinds",
  "Every buffer, offset and remaining length.",
  ["bufio/bytes_reader.go"])
p("BytesWriter output is read back by BytesReader",
  "For any list of typed fields that fits into the buffer, writing it with BytesWriter and reading with BytesReader using the same field kinds yields the same values, and WrittenBytes() is exactly their big-endian concatenation.",
  "all finite field lists, all buffers large enough",
  "Round trip over unbounded field sequences.",
  ["bufio/bytes_wirter.go", "bufio/bytes_reader.go"])
p("Typed writes change only their own window",
  "A typed write changes exactly the k bytes at the old offset; the buffer length and all other bytes are unchanged.",
  "all buffers, offsets, write kinds and values",
  "Frame condition over all other positions of all buffers.",
  ["bufio/bytes_wirter.go"])
p("ReadBytes never panics",
  "ReadBytes(size) returns bytes or an error and never panics, for every int size. (False of the code for negative sizes, which move the cursor back and then slice backwards; proved for size >= 0.)",
  "all buffers, offsets and int sizes",
  "The whole signed argument range has to be covered.",
  ["bufio/bytes_reader.go:ReadBytes", "bufio/bytes_buffer.go:peekN"])
p("GolombBitReader delivers the bits of the stream in order",
  "Reading n bits (ReadBits n<=64, ReadBits32 n<=32, ReadBits64 n<=64) returns the next n bits MSB first as a number and leaves exactly the rest; it fails with EOF iff fewer than n bits are left.",
  "all input byte strings, all read positions, all widths in range",
  "All streams and positions; EOF must be exact at each bit.",
  ["bufio/golomb_reader.go:ReadBit", "bufio/golomb_reader.go:ReadBits", "bufio/golomb_reader.go:ReadBits32", "bufio/golomb_reader.go:ReadBits64"])
p("Exp-Golomb decoding inverts encoding",
  "For every value v < 2^33-1 the ue(v) code word followed by any further bits is decoded to v, consuming exactly the code word.",
  "all values below 2^33-1 and all following bit strings",
  "Billions of values times all suffixes.",
  ["bufio/golomb_reader.go:ReadExponentialGolombCode"])
p("Signed Exp-Golomb decoding",
  "ReadSE returns the signed value of the se(v) code word as a 64-bit two's complement number. (False for negative values: -res/2 on an unsigned gives 2^63-k. Proved: exact for non-negative values, and congruent modulo 2^63 - hence modulo 256, as the scaling-list code needs - for negative ones.)",
  "all se values with magnitude below 2^32, all following bits",
  "Whole value range; the error is invisible where the result is only used modulo 256.",
  ["bufio/golomb_reader.go:ReadSE", "avc/sps.go:ParseSPS"])
p("24-bit big-endian accessors are inverse",
  "Uint24(PutUint24(dst,v)) = v mod 2^24 with the other bytes unchanged, and PutUint24 of Uint24 restores the same 3 bytes; both panic exactly when fewer than 3 bytes are present.",
  "all 32-bit values and all slices",
  "All 2^32 values and all slices.",
  ["bufio/util.go:PutUint24", "bufio/util.go:Uint24"])

# ---------------------------------------------------------------- collections
p("RingBuffer is a bounded FIFO that overwrites the oldest",
  "For any operation history a RingBuffer of capacity c behaves like a list: Push appends and drops the oldest element when c are held, Pop removes and returns the oldest (zero value when empty), Head/Tail are the ends (panic when empty), Size/IsEmpty/IsFull/Capacity agree, and the two slices of Data() concatenate to the contents.",
  "all element types, all capacities >= 1, all operation histories",
  "Unbounded histories exercise every head/tail wrap-around position.",
  ["collections/ring_buffer.go"])
p("Queue is an unbounded deque",
  "For any history Queue behaves like a list: Push appends without ever losing an element (growing as needed), Pop removes the front, PopBack removes the back, Peek(i) is the i-th element and panics exactly when i is out of range, Head/Tail/Size/Data agree.",
  "all element types, all initial capacities >= 1, all operation histories",
  "Growth may happen at any head/tail position; histories are unbounded.",
  ["collections/queue.go", "collections/ring_buffer.go"])
p("LinkedList behaves like a list",
  "For any history of Add, Remove(i), Get(i) with 0<=i: Add appends, Get(i)/Remove(i) return the i-th element, Remove deletes exactly it, Size counts, and i>=size panics. (For negative i the index check passes and the code dereferences nil or a stale node: shown by counterexample.)",
  "all element types, all operation histories, all indices",
  "The code leaves stale next pointers behind removed tails; only an invariant over all heap shapes shows that they are harmless.",
  ["collections/linked_list.go"])
p("ReferenceCounter: exactly one release sees zero",
  "In any interleaving of Refer and Release by any number of goroutines in which the number of releases never exceeds the references held, UseCount is 1+#Refer-#Release, and Release returns true exactly for the one operation that drops the last reference.",
  "all interleavings of all finite per-goroutine programs (counts below 2^31)",
  "All schedules of an unbounded number of goroutines.",
  ["collections/reference_counter.go"])
p("DirectBlockBuffer.Fetch returns what was written",
  "For any history on an unsealed buffer, Fetch returns exactly the concatenation of the Write payloads since the block was started (nil if the last block was already fetched); PendingBlockSize is its length; Data() is everything written since the buffer was last empty.",
  "all initial capacities, all histories of Write/Fetch/Pop/PopBack/Clear",
  "Growth and emptying can happen anywhere in an unbounded history.",
  ["collections/buffer_direct.go"])
p("Fetched blocks of a DirectBlockBuffer are immutable until popped",
  "A slice returned by Fetch keeps its contents through any further Writes, Fetches, growth and PopBacks of later blocks, until its own block is popped or the buffer is emptied or cleared.",
  "all histories",
  "Aliasing between returned slices and later writes over all histories.",
  ["collections/buffer_direct.go"])
p("SplitOff hands over the free memory",
  "After SplitOff the old buffer refuses Alloc/Fetch/Pop/PopBack, and the returned buffer accepts writes and reports the free memory as available without touching the old buffer's data. (False: the new buffer starts at the old offset inside the already re-sliced memory, so AvailableBytes can be negative and the first Alloc can panic. Proved: sealing, and the contract when nothing was written yet.)",
  "all buffer states and all subsequent operations",
  "Depends on the relation between offset and capacity in every reachable state.",
  ["collections/buffer_direct.go:SplitOff"])
p("RBBlockBuffer.Fetch returns what was written",
  "For any history on an unsealed RBBlockBuffer no operation panics except Fetch/PopBack on an empty buffer, and Fetch returns exactly the concatenation of the payloads written since the block was started, wherever the block was wrapped or moved to.",
  "all initial capacities, all histories of Write/Fetch/Pop/PopBack/Clear",
  "Wrap-around, relocation and growth can occur at any write of an unbounded history.",
  ["collections/buffer_rb.go:Alloc", "collections/buffer_direct.go:Fetch"])
p("Fetched blocks of an RBBlockBuffer stay intact until popped",
  "A slice returned by Fetch keeps its contents until the user has popped it. (False of the code: when the ring is exactly full after wrapping, tail == head is taken for 'not wrapped' and the oldest live block is overwritten; and a second growth before the discarded blocks were popped resets discardBlockCount so that live blocks are freed. Proved under the exact side conditions excluding these two events, and for every history without PopBack/SplitOff in which the live bytes leave room for two blocks of the largest size at every Write.)",
  "all histories with FIFO popping",
  "The failing states need a precise alignment of sizes that random tests rarely hit.",
  ["collections/buffer_rb.go:Alloc", "collections/buffer_rb.go:Pop", "collections/buffer_rb.go:grow"])
p("Streams in a StreamsBuffer are independent",
  "An operation on one stream index changes neither the contents nor the pending size nor the fetched slices of any other stream; indices have to be introduced densely (an index beyond the next free one panics).",
  "all numbers of streams, all histories",
  "All interleavings of per-stream histories.",
  ["streams_buffer.go"])
p("DirectDataPipeline.Fetch returns what was written",
  "For any history of Write and Fetch, Fetch returns exactly the concatenation of the writes since the previous Fetch, and PendingBlockSize is its length, across any number of reallocations. (The returned slice is only valid until the next Write: shown by counterexample.)",
  "all histories of Write/Fetch/PendingBlockSize",
  "Reallocation can occur at any write.",
  ["direct_pipeline.go"])

# ---------------------------------------------------------------- avc: NAL units
p("FindStartCode finds the first start code",
  "FindStartCode(p) returns the index just after the first 00 00 01 in p that is followed by at least one byte, with length 4 if another 00 precedes it and 3 otherwise, and (-1,-1) iff there is none; it never panics.",
  "all byte strings",
  "The search skips bytes two or three at a time; no skip may jump over a start code in any string.",
  ["avc/util.go:FindStartCode", "avc/util.go:FindStartCode2"])
p("FindStartCodeWithReader consumes up to the NAL header",
  "It returns the NAL header byte after the first start code in the unread bytes and leaves the cursor just behind it; if there is none it returns -1 and does not move.",
  "all buffers and cursor positions",
  "All buffers and positions.",
  ["avc/util.go:FindStartCodeWithReader"])
p("H.264 key frame detection",
  "avc.IsKeyFrame(p) is true iff the first NAL unit in p that is not SEI/AUD/SPS/PPS is an IDR slice; it terminates and never panics.",
  "all byte strings",
  "Arbitrarily many leading parameter sets, arbitrary payload bytes.",
  ["avc/util.go:IsKeyFrame"])
p("H.265 key frame detection",
  "hevc.IsKeyFrame(p) is true iff the first NAL unit in p that is not VPS/SPS/PPS/AUD/SEI has a type in 16..23; it terminates and never panics.",
  "all byte strings",
  "Arbitrarily many leading parameter sets, arbitrary payload bytes.",
  ["hevc/util.go:IsKeyFrame"])
p("SplitNalU partitions its input",
  "For inputs of at least 3 bytes the callback receives a sequence of slices whose concatenation is the input, every slice but the first begins with a start code, and no slice contains a start code followed by a byte beyond its own leading three bytes; for shorter inputs it panics.",
  "all byte strings",
  "Exact cover for all byte strings.",
  ["avc/util.go:SplitNalU"])
p("RemoveStartCode strips exactly a leading start code",
  "RemoveStartCode strips a leading 00 00 01 or 00 00 00 01 and otherwise returns its input; it panics exactly on the empty slice and on 00, 00 00, 00 00 00 alone.",
  "all byte strings",
  "All prefixes and lengths.",
  ["avc/util.go:RemoveStartCode"])
p("AVCC to Annex B conversion",
  "For every AVCC byte string AVCC2AnnexB writes, for the longest prefix of well-formed 4-byte-length units, each unit except SEI preceded by a start code (4 bytes for the first output, 3 for the others), and returns the number of bytes; malformed tails are dropped. With no extra data the output never exceeds the input length, so a destination as long as the input never panics.",
  "all AVCC byte strings and sufficiently long destinations",
  "Every segmentation of every byte string, including malformed ones.",
  ["avc/util.go:AVCC2AnnexB", "avc/util.go:copyNalUWithBytes"])
p("AVCC2AnnexB inserts parameter sets before an IDR",
  "With extra data, the extra bytes are inserted before each IDR unit that is not preceded by an SPS or PPS unit in the same packet and nowhere else.",
  "all AVCC byte strings and extra data",
  "Depends on the full history of unit types in the packet.",
  ["avc/util.go:AVCC2AnnexB"])
p("Annex B to AVCC conversion",
  "For every sequence of NAL units (non-empty, first byte non-zero, no embedded start code, not ending in zero) separated by 3- or 4-byte start codes, AnnexB2AVCC writes exactly the 4-byte-length-prefixed units; with no start code at all it returns 0. (An empty unit between two start codes is not skipped as the comment claims: its start-code byte 01 becomes the first byte of the next unit - counterexample.)",
  "all sequences of NAL units and all choices of start code length",
  "Unbounded unit sequences and all payload bytes.",
  ["avc/util.go:AnnexB2AVCC"])
p("AVCC -> Annex B -> AVCC is the identity",
  "For every list of SEI-free clean NAL units, AnnexB2AVCC(AVCC2AnnexB(avcc)) = avcc.",
  "all lists of clean NAL units",
  "Round trip over unbounded lists.",
  ["avc/util.go:AVCC2AnnexB", "avc/util.go:AnnexB2AVCC"])
p("AnnexBPacket2AVCC never overruns its buffer",
  "Converting any Annex B video packet with the default allocation of len+256 bytes succeeds. (False: each 3-byte start code grows the output by one byte, so a packet with more than 256 units with 3-byte start codes panics. Proved for at most 256 units.)",
  "all Annex B packets",
  "Needs packets with hundreds of units to fail.",
  ["packet_utils.go:AnnexBPacket2AVCC", "avc/util.go:AnnexB2AVCC"])
p("MP4 to Annex B through a writer",
  "avc.Mp4ToAnnexB writes each unit with a start code and inserts the extra data before an IDR not preceded by SPS/PPS, when the writer has room; unlike AVCC2AnnexB it keeps SEI units.",
  "all byte strings, extra data and writers with enough room",
  "Every segmentation of every byte string.",
  ["avc/util.go:Mp4ToAnnexB", "avc/util.go:copyNalU"])
p("M4VCExtraDataToAnnexB keeps all parameter sets",
  "For every well-formed AVC configuration record it returns all SPS and PPS with 4-byte start codes, and for malformed records it returns an error without panicking. (False twice: with more than one SPS the PPS are dropped, and a truncated SPS panics. Proved for records with exactly one SPS.)",
  "all configuration records",
  "All parameter-set counts and lengths.",
  ["avc/util.go:M4VCExtraDataToAnnexB"])
p("H.264 parameter sets are extracted from a key frame",
  "avc.ParseExtraDataFromKeyNALU returns the last SPS and last PPS of the access unit, each with a 4-byte start code, and an error iff one kind is missing, for every access unit whose units are non-empty.",
  "all access units",
  "Arbitrary order and number of units.",
  ["avc/util.go:ParseExtraDataFromKeyNALU", "video_stream.go:ExtractVideoExtraDataFromKeyFrame"])
p("H.265 parameter sets are extracted from a key frame",
  "hevc.ParseExtraDataFromKeyNALU returns the last VPS, SPS and PPS of the access unit, each with a 4-byte start code, and an error iff one kind is missing, for every access unit whose units are non-empty.",
  "all access units",
  "Arbitrary order and number of units.",
  ["hevc/util.go:ParseExtraDataFromKeyNALU", "video_stream.go:ExtractVideoExtraDataFromKeyFrame"])

# ---------------------------------------------------------------- avc/hevc: configuration records
p("AVC configuration record round-trip",
  "Unmarshal(Marshal(spsList,ppsList)) returns the same parameter sets in the same order with 4-byte start codes, and profile/compatibility/level from the last SPS, for 1..31 SPS and 1..255 PPS that fit in 1024 bytes.",
  "all parameter-set lists within the limits",
  "All list lengths, set lengths and contents.",
  ["avc/mp4.go:Marshal", "avc/mp4.go:Unmarshal"])
p("AVC record Unmarshal is total and exact",
  "Unmarshal never panics; it succeeds exactly on the byte strings that have the record layout (5 header bytes, at least one SPS, at least one PPS, all complete) and then returns exactly the sets in the record.",
  "all byte strings",
  "Every truncation and every length field value.",
  ["avc/mp4.go:Unmarshal"])
p("AVC ExtraDataToAnnexB",
  "ExtraDataToAnnexB returns the concatenation of all SPS then all PPS with 4-byte start codes, or an error if the record is malformed or the result exceeds 1024 bytes; it never panics.",
  "all byte strings",
  "Every record and every truncation.",
  ["avc/mp4.go:ExtraDataToAnnexB"])
p("HEVC configuration record round-trip",
  "Unmarshal(Marshal(vps,sps,pps)) returns the same three lists. (False for two or more SPS: SPSList is overwritten with PPSList+sps. Proved for exactly one SPS.)",
  "all parameter-set lists that fit in 1024 bytes",
  "All list lengths and contents.",
  ["hevc/mp4.go:Marshal", "hevc/mp4.go:Unmarshal"])
p("HEVC record Unmarshal is total",
  "Unmarshal never panics on any byte string, and on success all three parameter-set lists are non-empty; every returned set is a 4-byte start code followed by bytes of the record.",
  "all byte strings",
  "Every truncation and length field value.",
  ["hevc/mp4.go:Unmarshal"])
p("HEVC length-prefixed to Annex B conversion",
  "hevc.Mp4ToAnnexB converts every well-formed sequence of units with a 1..4 byte length prefix to the same units with 4-byte start codes, inserts the extra data exactly once, before the first IRAP unit, and returns an error exactly when some unit is truncated or shorter than 2 bytes.",
  "all byte strings, all length sizes 1..4, all extra data, sufficiently long destinations",
  "Every segmentation of every byte string.",
  ["hevc/util.go:Mp4ToAnnexB"])
p("Emulation prevention removal",
  "The HEVC SPS parser's unescaping is the exact inverse of the standard's emulation-prevention insertion: for every raw payload, unescape(escape(payload)) = payload.",
  "all byte strings",
  "Arbitrary runs of zeros and 03 bytes.",
  ["hevc/sps.go:nal2rbsp"])

# ---------------------------------------------------------------- SPS
p("H.264 SPS parsing recovers the encoded picture size",
  "For every SPS serialised by the standard's syntax (any profile, POC type, scaling lists, cropping), ParseSPS returns its profile, level, id and Width=16*mbWidth-2*(cropLeft+cropRight), Height=16*(2-frame_mbs_only)*mbHeight-2*(cropTop+cropBottom). (For interlaced or non-4:2:0 streams the standard's crop unit differs: counterexample.)",
  "all syntactically valid SPS without emulation-prevention bytes",
  "A product of dozens of variable-length fields.",
  ["avc/sps.go:ParseSPS"])
p("H.264 SPS parsing never panics and terminates",
  "ParseSPS terminates and returns a result or an error, and panics only where stripping a start code panics, for every byte string.",
  "all byte strings",
  "Loop counts of up to 2^33 are read from the input.",
  ["avc/sps.go:ParseSPS"])
p("H.264 SPS parsing handles emulation prevention",
  "ParseSPS of an escaped SPS gives the same result as of the unescaped one. (False: avc.ParseSPS does not unescape - counterexample; true when the payload contains no 00 00 0x.)",
  "all SPS payloads",
  "Depends on particular byte patterns in the payload.",
  ["avc/sps.go:ParseSPS"])
p("H.265 SPS parsing recovers the encoded picture size",
  "For every SPS serialised by the standard's syntax and escaped, hevc.ParseSPS returns the coded width and height, for any number of sub-layers. (The conformance window is ignored.)",
  "all syntactically valid SPS",
  "A product of dozens of variable-length fields.",
  ["hevc/sps.go:ParseSPS", "hevc/sps.go:parsePTL"])
p("H.265 SPS parsing never panics",
  "hevc.ParseSPS returns a result or an error and panics only where stripping a start code panics, for every byte string.",
  "all byte strings",
  "Every truncation.",
  ["hevc/sps.go:ParseSPS"])

# ---------------------------------------------------------------- utils
p("ADTS header round-trip",
  "ReadADtsFixedHeader of a header written by SetADtsHeader returns every field: sync word, id, layer, protection, profile, sampling index, channel configuration, 13-bit frame length, fullness 0x7FF, 0 blocks; only the first 7 bytes are written.",
  "all argument values, all destination slices of at least 7 bytes",
  "All combinations of field values.",
  ["utils/aac_util.go:SetADtsHeader", "utils/aac_util.go:ReadADtsFixedHeader", "utils/aac_util.go:ADtsHeader"])
p("ADTS header to AudioSpecificConfig",
  "Converting any ADTS header to an AudioSpecificConfig and parsing that returns object type profile+1, the same sampling index with its table sample rate, and the same channel configuration.",
  "all 64-bit header values",
  "All header values.",
  ["utils/aac_util.go:ADtsHeader2MpegAudioConfigData", "utils/aac_util.go:ParseMpeg4AudioConfig"])
p("Sample rate index lookup",
  "GetSampleRateIndex inverts GetSampleRateFromFrequency for the 13 standard rates. (False: it looks the rate up as an index and returns 0 for every rate of 16 or more.)",
  "all ints",
  "The whole int range.",
  ["utils/aac_util.go:GetSampleRateIndex"])
p("RandomIntInRange stays in range",
  "RandomIntInRange(min,max) returns a value in [min,max] for every outcome of the random source whenever min<=max and max-min+1 does not overflow, and panics otherwise.",
  "all int pairs and all random outcomes",
  "All outcomes of the random source and overflow at the extremes.",
  ["utils/random_util.go:RandomIntInRange", "utils/random_util.go:RandStringBytes"])

# ---------------------------------------------------------------- root package
p("Timestamp conversion is monotone and accurate",
  "For results up to 2^62 ConvertTs is odd and monotone in the timestamp and differs from the exact rational value x=ts*dst/src by less than 1+|x|/2^50 (less than 2 for |x|<=2^50); it is the identity for equal time bases when |ts|<=2^53 and exact to a multiple of the time base. From 90000 to 1000 it is exact truncation for |ts|<=2^51, so milliseconds go to 90000 and back unchanged, and the other way the ticks that are no whole millisecond are lost. (In general it is not exact truncation: floating point can be one below an exact integer result - counterexample. The first version of this property bounded |ts| instead of |x|, which is false - counterexample.)",
  "all timestamps and time bases in range",
  "Floating-point rounding over the whole range.",
  ["packet_utils.go:ConvertTs", "av_packet.go:ConvertDts"])
p("Recycled packets carry no stale state",
  "For any history of NewAudioPacket/NewVideoPacket/FreePacket, in whatever order the pool hands packets out, a new packet has exactly the requested fields, no cached conversions and default values elsewhere (PacketType of audio packets excepted: 0 when fresh, NONE when recycled), and distinct live packets are never the same object.",
  "all histories without double free, all pool behaviours",
  "All histories and all pool choices, including garbage collection of pooled items.",
  ["av_packet.go:NewAudioPacket", "av_packet.go:NewVideoPacket", "av_packet.go:FreePacket"])
p("Track registration",
  "In any history, BaseMuxer.AddTrack accepts at most one track per media type and returns an index at which Get returns that track for ever after; Find and FindTrackWithType return the earliest matching track or nil.",
  "all histories of AddTrack",
  "All histories.",
  ["tracks.go", "muxer.go:AddTrack"])
p("Buffer indices are stable and distinct",
  "FindBufferIndex returns the same index for the same marker for ever, different indices for different markers, and indices are assigned densely from 0 in order of first use.",
  "all histories of lookups",
  "All histories.",
  ["demuxer.go:FindBufferIndex"])
p("Demuxer callback order",
  "For any history the handler sees either nothing, or one OnTrackNotFind and then nothing, or all OnNewTrack calls (in index order, each track once), then one OnTrackComplete, then only OnPacket calls for tracks that were announced.",
  "all histories of track, packet and probe events",
  "All event histories.",
  ["demuxer.go:OnProbeComplete", "demuxer.go:processBufferedPacket"])
p("Demuxer delivers packets in order, once, with durations",
  "Per track, the delivered packets are exactly the accepted packets except the most recent one, each once, in input order after probing, with Duration equal to the next packet's DTS minus its own. (False if a track's first packet arrives before that of a track with a smaller index: the queues get mixed. Proved when first packets arrive in index order.)",
  "all histories of packets on all tracks",
  "All interleavings of tracks before and after probing.",
  ["demuxer.go:processBufferedPacket", "demuxer.go:OnProbeComplete"])
p("Packets buffered while probing are delivered in DTS order",
  "At probe completion the buffered packets are delivered sorted by DTS, whatever order the unstable sort picks for equal keys; if DTS is strictly increasing within a track, its input order is kept.",
  "all buffered packet sets and all results the sort may return",
  "sort.Slice is unstable: the claim must hold for every permitted result.",
  ["demuxer.go:OnProbeComplete"])
p("Demuxer memory accounting",
  "With AutoFree, every packet block accepted into the pipeline is discarded exactly once: from the back when its packet is rejected, from the head of its own buffer after delivery, and the blocks still held are those of the packets still queued.",
  "all histories",
  "All histories.",
  ["demuxer.go:forwardPacket", "demuxer.go:OnAudioPacket", "demuxer.go:OnVideoPacket"])
p("Probe ends exactly when enough is buffered",
  "Probing completes on a packet iff the buffered duration of its track in ms reaches max(ProbeDuration,200) (the redundant third operand changes nothing); after completion no track is ever added and completion never happens again.",
  "all histories and probe durations",
  "All histories.",
  ["demuxer.go:processBufferedPacket", "demuxer.go:OnProbeComplete", "demuxer.go:AddTrack"])
p("Track indices are positions and buffers map to one track",
  "In every reachable state the i-th track has Index i, and each buffer index created through packet input belongs to one track, so lookup does not depend on map iteration order.",
  "all histories of packet input",
  "Go map iteration order is random: the claim must hold for every order.",
  ["demuxer.go:createAudioTrack", "demuxer.go:createVideoTrack", "demuxer.go:findTrackByBufferIndex"])
p("PCM sample rate and G.726 bit rate detection",
  "The detected G.726 bit rate is one of 16/24/32/40 kbit/s and the smallest one not below the measured rate; the detected PCM sample rate is one of 8/16/32/48 kHz for at most 96 bytes per ms. (Above that the code stores the sample size instead of keeping the sample rate - counterexample.) No division by zero occurs.",
  "all packet sizes and durations",
  "All packet sizes and durations.",
  ["demuxer.go:calculatePCMFrequency", "demuxer.go:calculateG726BitRate"])
p("AVCCPacket2AnnexB result and caching",
  "For an H.264 AVCC packet the result is (extra data if key) followed by the Annex B conversion of the payload; Annex B key packets get the extra data prepended unless they already start with the same header byte; the packet payload is unchanged, repeated calls return the same bytes, and the default allocation always suffices for H.264. (With nil codec parameters an AVCC packet panics - counterexample.)",
  "all packets and codec data",
  "All payloads and all call sequences.",
  ["packet_utils.go:AVCCPacket2AnnexB"])
p("Codec data accessors agree",
  "For codec data built from parameter sets, AnnexBExtraData is their concatenation, and parsing its MP4ExtraData back gives the same SPS, PPS, width and height; for codec data parsed from a record, MP4ExtraData is that record.",
  "all parameter sets and records within the size limit",
  "All parameter sets.",
  ["codec_paraments.go"])
p("HEVC record header fields are the bit fields of the standard",
  "Unmarshal of an HEVC record sets every header field to the value of the bit range that ISO/IEC 14496-15 assigns to it (version at bit 0, profile space at 8, tier flag at 10, ... number of arrays at 176), except that LengthSizeMinusOne holds the length size, one more than the coded value.",
  "all byte strings of at least 23 bytes",
  "All values of all bit fields.",
  ["hevc/mp4.go:Unmarshal"])
p("HEVC ExtraDataToAnnexB",
  "ExtraDataToAnnexB of an HEVC record is the concatenation of the VPS, SPS and PPS lists of Unmarshal; an error if the record is malformed, has no VPS, SPS or PPS, or the result exceeds 1024 bytes; it never panics.",
  "all byte strings",
  "Every record and every truncation.",
  ["hevc/mp4.go:ExtraDataToAnnexB"])
p("The demuxer survives arbitrary packets",
  "Whatever packets are put into a demuxer of a known format, no call panics. (False: key frames of H.264/H.265 that are too short, that have an empty NAL unit, or whose SPS is followed by a trailing start code, panic - counterexamples. It holds for FLV, for everything but key frames, and for well framed key frames.)",
  "all histories of packets with arbitrary contents, all formats and all map iteration orders",
  "All byte strings as payloads, in all states of the demuxer.",
  ["demuxer.go:OnAudioPacket", "demuxer.go:OnVideoPacket", "demuxer.go:ExtractVideoExtraDataFromKeyFrame", "demuxer.go:ExtractAudioExtraData"])
p("Where tracks come from",
  "With packet input only, every track is described by a packet that came in for its codec: a video track has the last parameter sets of a key frame and the size its SPS says, an AAC track the configuration in the ADTS header of a packet, other audio the defaults; the timebase is that of the format. A key frame with readable parameter sets, and any audio packet other than AAC without an ADTS header, makes a track when its buffer has none and probing is going on; other packets without a track are given back.",
  "all histories of packets, all formats, all states",
  "All histories before the packet; all contents of parameter sets and headers.",
  ["demuxer.go:OnAudioPacket", "demuxer.go:OnVideoPacket", "demuxer.go:CreateAudioTrack", "demuxer.go:CreateVideoTrack", "demuxer.go:GenerateVideoCodecData"])
p("TryCompleteProbe waits for tracks whose rate is measured",
  "While probing, TryCompleteProbe has no effect if a PCM or G.726 track has got less than two packets, and ends probing otherwise; after probing it has no effect. (False if the track was announced and has no packet, or first packets come out of order - counterexample; true for packet input.)",
  "all histories, all formats, all map iteration orders",
  "All interleavings of packets and announcements.",
  ["demuxer.go:TryCompleteProbe"])
p("Announcing tracks",
  "OnNewAudioTrack and OnNewVideoTrack return nil, and change nothing, if probing is over, if the format is not TS and there is a track of the type, or if the configuration cannot be read; otherwise they append a track with the next index, the given codec, timebase and extra data, for the given buffer, and packets of that buffer go to it. The block with extra data is given back in any case. Except in TS there is at most one track of each type. (The last is false when packets come on more than one buffer per type - counterexample.)",
  "all histories and arguments, all formats",
  "All states in which a track is announced.",
  ["demuxer.go:OnNewAudioTrack", "demuxer.go:OnNewVideoTrack", "demuxer.go:createAudioTrack", "demuxer.go:createVideoTrack"])

p("Names of media types, codecs and files",
  "AVMediaType.String gives different names to different media types and panics exactly outside the enumeration; AVCodecID.String gives different names to different numbers; the name of the file that the file handler opens tells its path, the media type, the index and the codec of the track.",
  "all media type and codec numbers, all paths and indices",
  "All integers, including codecs without a name of their own; all paths, also with dots.",
  ["utils/av_util.go:String", "utils/codec_id.go:String", "handler.go:OnNewTrack"])
p("The file handler writes each track to its own file",
  "After any session the file of each track holds exactly what the packets of the track stand for (audio data as it is, video as Annex B), in the order of delivery; other files are untouched; the handler panics exactly when a type has no name or a packet cannot be converted. (False: the parameter sets of AVCC key packets are written twice, older longer files keep their end, and the owner may not read new files - counterexamples.)",
  "all tracks, all sequences of packets, all contents of the disk",
  "All interleavings of the packets of any number of tracks, and all earlier contents of the disk.",
  ["handler.go:OnNewTrack", "handler.go:OnPacket"])
p("The handler reads the bytes that were written",
  "A caller writes each payload in pieces to a StreamsBuffer, fetches the block and hands the slice to the demuxer, which keeps it until the packet is delivered, possibly much later and out of order. Under light load (each payload at most M bytes, and what is queued in a buffer, the payload and two times M fit into it) no call panics, the demuxer behaves as on slices that never change, and behind every packet the handler finds, at the moment of delivery, exactly the bytes that were written; also the packets that still wait are intact. With DirectDataPipeline it is false: the packet that is delivered has been overwritten by the next (counterexample).",
  "all histories of packets with any DTS, any cutting into pieces, any number of buffers, any memory, all map iteration orders",
  "All interleavings of the packets of several buffers; the ring wraps around and is shrunk at all positions.",
  ["demuxer.go:OnAudioPacket", "demuxer.go:OnVideoPacket", "demuxer.go:forwardPacket", "streams_buffer.go:Write", "streams_buffer.go:Fetch", "collections/buffer_rb.go:Write", "direct_pipeline.go:Fetch"])
p("Closed demuxers",
  "A demuxer without a handler (never set, or taken away by Close) never reaches a handler and never ends probing; otherwise it does what it does with one, as long as no call panics. While probing a call panics exactly if it would end probing or panics with a handler; after probing a packet panics exactly if its buffer had a packet before. (That packets after Close are harmless is false - counterexample.)",
  "all histories before Close, all operations after it",
  "All states in which Close may be called, and all sequences of calls after it.",
  ["demuxer.go:Close", "demuxer.go:SetHandler", "demuxer.go:SetOnPreprocessPacketHandler", "demuxer.go:forwardPacket", "demuxer.go:OnProbeComplete"])
p("ComputeAACFrameDuration",
  "The result is, in a fixed unit of time, the duration of a frame of 1024 samples at the given sample rate. (False: it is the number of frames per second, exactly, for all rates below 2^24, so it grows with the rate - counterexample for every unit.)",
  "all sample rates",
  "The rounding of float32 at all rates.",
  ["utils/aac_util.go:ComputeAACFrameDuration"])
p("Demuxers with packet objects behave like demuxers with packet values",
  "Packets are objects of a global pool that are written through pointers, and wait in linked lists. Whatever handlers and others do with the pool and with their own packets in between, and however the pool recycles packets, the demuxer makes the calls, with the packets, that a demuxer makes whose packets are values in lists, and panics when that one does; the queued packets are always different objects with the right contents that nobody else has. (If a handler frees a packet that the demuxer is going to free, or writes to a packet that is not its own, it is false - counterexample.)",
  "all histories of operations, all actions of others at every call, all choices of the pool, of sorting and of map iteration",
  "All interleavings with other users of the pool and all recycling orders.",
  ["demuxer.go:processBufferedPacket", "demuxer.go:OnProbeComplete", "demuxer.go:forwardPacket", "av_packet.go:NewAudioPacket", "av_packet.go:NewVideoPacket", "av_packet.go:FreePacket", "collections/linked_list.go:Remove"])
p("Reported capacity and available memory",
  "AvailableBytes is never negative and is exactly the amount that one more Write can store without a new array: a write that fits keeps the array and lowers it by its length, a larger one moves the buffer to a fresh array of one and a half times the bytes in use. Size is at most Capacity. (True of DirectBlockBuffer and, with C15, of RingBuffer. False of RBBlockBuffer, which always reports 0, and of Queue, whose Capacity is 0 after every history - counterexamples.)",
  "all histories, all initial capacities, all lengths written",
  "All positions of the write offset in the array and all histories of growth.",
  ["collections/buffer_direct.go:AvailableBytes", "collections/buffer_direct.go:Alloc", "collections/buffer_rb.go:AvailableBytes", "collections/ring_buffer.go:Capacity", "collections/queue.go:NewQueue"])
p("Containers keep no reference to what has left them",
  "After every history the backing array of a RingBuffer or Queue holds, up to rotation, the elements that are held, followed by zero values; so a removed element can be collected. (False after PopBack and after Clear, which leave the elements in the array - counterexamples. It holds for all histories of the other calls, also when the ring overwrites and the queue grows.)",
  "all histories, all initial capacities, all element types",
  "All positions of the window in the array, wrapped or not, before and after growth.",
  ["collections/ring_buffer.go:Pop", "collections/ring_buffer.go:Push", "collections/ring_buffer.go:Clear", "collections/queue.go:Push", "collections/queue.go:PopBack"])
p("SafeRead is a checked Read",
  "BitsReader.SafeRead returns what Read returns when there are enough bits, and an error otherwise. (False: it returns 0 and no error always, and does not move the reader - counterexamples.)",
  "all data, all offsets, all lengths",
  "All positions and lengths.",
  ["bufio/bits_reader.go:SafeRead"])
p("A stream without parameter sets inherits those of its codec",
  "Video for a buffer without a track, before the end of probing and not in FLV, that brings no parameter sets (no key frame, or none among its NAL units), while tracks of its codec exist: the packet makes a track with the data of the first track of that codec, if that data can be parsed, and is given back if it cannot or if that track is an audio track without data; no other outcome is possible unless the parser panics.",
  "all reachable demuxers, all packets that bring no sets, all tracks found, all map iteration orders",
  "All histories that lead to an earlier track, with or without data, and all positions of it in the list.",
  ["demuxer.go:OnVideoPacket", "demuxer.go:createVideoTrack", "tracks.go:Find"])
p("Whole bytes through bit readers and writers",
  "ReadBytes(n) returns the next n bytes of the bit stream and WriteBytes(d) stores the bits of d at the current bit and nothing else, as n calls of Read(8) or Write(8, b) do. (Between byte boundaries it is false: both round the position down, so bits are read again and written bits are lost - counterexample; the exact effect is proved for every position, also when the bytes do not fit, with the exact condition for a panic, and what is written is read back from the same position.)",
  "all data, all bit offsets, all lengths, all bytes written",
  "All bit positions, aligned or not, and all lengths up to and past the end.",
  ["bufio/bits_reader.go:ReadBytes", "bufio/bits_reader.go:Seek", "bufio/bits_writer.go:WriteBytes", "bufio/bits_writer.go:Seek"])
p("Time stamps of a packet in another time base",
  "ConvertDts, ConvertPts, GetDuration and GetPtsDtsDelta return the value of their own field unchanged in the packet's own time base, for all 64-bit values, and otherwise a value within 1 + |x|/2^50 of the exact value x; a packet with DTS not after PTS keeps that property in every time base, packets of one time base keep their order, and GetPtsDtsDelta is at most 3 units away from the difference of the converted time stamps. (It need not be equal to it.)",
  "all packets, all time bases",
  "All 64-bit time stamps and all pairs of time bases, with the rounding of float64.",
  ["av_packet.go:ConvertDts", "av_packet.go:ConvertPts", "av_packet.go:GetDuration", "av_packet.go:GetPtsDtsDelta"])
p("Streams made from a key frame, codec data made from a record",
  "CreateAVCStreamFromKeyFrame and CreateHevcStreamFromKeyFrame give, for every payload in which the search for parameter sets succeeds, the video stream with the given index, the last parameter sets of the payload, their Annex B form as data and the picture size of the SPS, the same codec data and extra data that the demuxer gets from that payload; an error if a set is missing or the SPS cannot be parsed; a panic exactly if the search panics. NewCodecDataFrom...DecoderConfigurationRecord never panic and agree with Parse...DecoderConfigurationRecord.",
  "all payloads and all records",
  "All byte strings, well framed or not.",
  ["video_stream.go:CreateAVCStreamFromKeyFrame", "video_stream.go:CreateHevcStreamFromKeyFrame", "av_stream.go:NewAVStream", "avc/sps.go:NewCodecDataFromAVCDecoderConfigurationRecord", "hevc/sps.go:NewCodecDataFromHEVCDecoderConfigurationRecord"])
p("MinInt and MaxInt",
  "MinInt and MaxInt return one of their two arguments, the smaller and the larger one.",
  "all pairs of ints",
  "All pairs of 64-bit values.",
  ["bufio/util.go:MinInt", "bufio/util.go:MaxInt"])
p("Streams own their memory",
  "A stream made from extra data or from a key frame holds no slice of the caller's memory, although the parameter sets of its codec data are slices and the caller's buffer is freed right after the call: making it leaves all existing memory unchanged, its slices lie in memory that did not exist before, and whatever the rest of the program later writes to memory that it holds, every stream reads what it read when it was made; no two streams share memory.",
  "all memories, all slices, all sequences of writes, allocations and stream creations",
  "All interleavings of later writes with stream creation, all offsets of the extra data in shared buffers; a test sees an alias only if it overwrites exactly the right bytes later.",
  ["demuxer.go:createVideoTrack", "demuxer.go:createAudioTrack", "video_stream.go:CreateAVCStreamFromKeyFrame", "video_stream.go:CreateHevcStreamFromKeyFrame", "avc/util.go:ParseExtraDataFromKeyNALU", "hevc/util.go:ParseExtraDataFromKeyNALU"])
p("Bytes behind the end of a slice do not matter",
  "A function's result depends on the bytes of the slices it is given, not on what lies between their length and their capacity: BitsReader.ReadBytes, M4VCExtraDataToAnnexB, AVCCPacket2AnnexB and AnnexBPacket2AVCC give the same result for every spare capacity and every content of it.",
  "all slices, all spare capacities and contents",
  "Tests make exact slices; buffers from pools have spare capacity with stale bytes.",
  ["bufio/bits_reader.go:ReadBytes", "avc/util.go:M4VCExtraDataToAnnexB", "packet_utils.go:AVCCPacket2AnnexB", "packet_utils.go:AnnexBPacket2AVCC"])
p("Only code words are accepted as Exp-Golomb codes",
  "If ReadExponentialGolombCode or ReadSE succeeds, the bits it consumed are the code word of the value it returned (of the value of C13 for ReadSE); it fails with EOF exactly if no code word is in front, and never panics.",
  "all bit strings and reader positions",
  "All bit strings; long runs of zeros do not occur in test data.",
  ["bufio/golomb_reader.go:ReadExponentialGolombCode", "bufio/golomb_reader.go:ReadSE"])

p("Only parameter sets are accepted as parameter sets",
  "If avc.ParseSPS or hevc.ParseSPS succeeds, the payload begins with a sequence parameter set of the standard, and the result describes that set; if the payload does not, an error is returned.",
  "all byte strings behind an optional start code and the NAL header",
  "All byte strings; damaged or foreign parameter sets do not occur in test data.",
  ["avc/sps.go:ParseSPS", "hevc/sps.go:ParseSPS"])

p("From packets to files",
  "When frames are given to a PS, TS or JT1078 demuxer on a StreamsBuffer with OnUnpackStream2FileHandler as its handler and probing ends, the file of each track holds the frames given for its buffer, from the first one that is not refused to the last but one, in the order of input and unchanged; in front of a key frame of H.264 or H.265 that does not begin with parameter sets there are those of the track. The order is that of input if the DTS of each buffer increase; with any other DTS, the frames that came before probing ended, but the last of them, are in an order of increasing DTS and the later ones follow in the order of input.",
  "all histories of packets on any number of buffers, all cuttings of frames into writes, all map orders and sort results, all initial memories",
  "Unbounded histories through five components whose states interact; memory is reused, so that a wrong byte depends on the whole history.",
  ["demuxer.go:OnVideoPacket", "demuxer.go:OnAudioPacket", "streams_buffer.go", "handler.go:OnPacket", "packet_utils.go:AVCCPacket2AnnexB"])

p("Which parameter sets an HEVC record lists",
  "After a successful Unmarshal of an HEVC decoder configuration record, VPSList and PPSList hold the units of the arrays of types 32 and 34 in the order of the record; SPSList holds the PPS that precede the last SPS followed by that SPS, whose place is taken by the next PPS exactly if PPSList had spare capacity at that point. In particular SPSList is right for one SPS with no PPS in front of it. This is what Go's append does to the shared arrays.",
  "all records with any arrays in any order and number, all capacity policies of append",
  "Whether an SPS is overwritten depends on the capacities that append has picked for all earlier elements; tests use records with one set of each kind in the usual order.",
  ["hevc/mp4.go:Unmarshal"])

p("Floating-point expressions are evaluated in IEEE 754 arithmetic without overflow",
  "For all int64 values with a non-zero source time base, ConvertTs computes in finite float64 numbers only: both conversions, the quotient and the product are the nearest numbers of the format (ties to even), there is exactly one such result, and it is returned after truncation towards zero if it fits int64. The same holds for the frame rate of an H.264 SPS (all 32-bit tick and time scale values, tick not 0) and in float32 for ComputeAACFrameDuration (all sample rates).",
  "all int64 timestamps, source and target time bases; all 32-bit time scales and ticks; all int sample rates",
  "Tests compare a few values; that no operation overflows, becomes subnormal or meets a tie rounded the wrong way needs an argument over the whole 64-bit range.",
  ["packet_utils.go:9-12", "avc/sps.go:331", "utils/aac_util.go:268-270"])

p("Demuxers that share the packet pool are independent",
  "In a process with any number of demuxers that all take packets from the one package-level pool, after any sequence of operations of the demuxers in any order, every demuxer is in a state that it could have reached alone with its own operations, with the same calls of its handler; no packet is in two queues, or queued and in the pool; and the process panics only where a demuxer would have panicked alone. Handlers may use the pool and packets of their own meanwhile. (A handler that frees a packet twice makes another demuxer deliver the wrong stream's data: C97_rogue_handler.)",
  "all finite families of demuxers, all interleavings of operations, all fair uses of the pool by handlers, all choices of the pool and of the sort",
  "Cross-talk through the pool appears only for particular interleavings of streams and for particular choices of sync.Pool; tests run one demuxer.",
  ["av_packet.go:29-35", "av_packet.go:37-45", "demuxer.go:29-41", "demuxer.go:262-282"])

p("The file handler on a disk that fails",
  "Whatever operations of the disk fail, and after however many bytes: a file handler that returns has noticed every failure (none of its operations failed, and it has done exactly what it does on a disk that never fails); when it dies, in a failed operation or for any other reason, there is one point of the packet sequence such that every file holds exactly what the handler writes for its track's packets before that point, except that the file of the packet at that point may hold a beginning of what that packet adds; no other file has changed. Behind a demuxer with any history this is so of the tracks and packets it has handed over; if the files are new and the session would succeed on a disk that does not fail, each file left behind is missing or a beginning of the file that there would be.",
  "all fault patterns, all lengths of partial writes, all sessions, all initial disks",
  "Errors of the disk are rare and hard to provoke at each of the handler's operations; what is left behind after each of them is not looked at by tests.",
  ["handler.go:55-64", "handler.go:70-88"])

p("From announced tracks and packets to files",
  "For every history of announcing tracks and giving packets to a demuxer of any format, with the file handler behind it: the packets taken for a buffer are those given for it since some moment when it had no track, unchanged, in order, without a gap; and when probing has ended, the file of a track holds what these packets stand for, all but the last, in order. In FLV, a file with H.264 holds for each frame its units with start codes and without SEI, in front of a key frame all parameter sets of the decoder configuration record, twice, for any payloads whatsoever; H.265 likewise. In every history at all, whatever the DTS and the order in which tracks get their packets, nothing given for a track is in its file twice, and all of it is there but what is held back, at most as many packets as there are tracks.",
  "all histories that are orderly (first packets in the order of the tracks, or two tracks that both have packets before probing ends), with increasing DTS in each buffer and no preprocess callback; all payloads (H.264), all payloads made of units (H.265)",
  "The claim joins record parsing, probing, queues, sorting, conversion and the file handler for histories of any length and payloads with any content; tests run one file through it.",
  ["demuxer.go:79-90", "demuxer.go:134-169", "demuxer.go:171-301", "demuxer.go:434-476", "handler.go:25-88", "packet_utils.go:14-80"])

p("Going on after a panic of the demuxer",
  "A caller that recovers from panics of the demuxer and goes on has a demuxer in a state that some history without panics reaches: each packet that made it panic counts as a packet that is refused, with the same payload on the same buffer, and each announcement that did is left out. A packet that panics leaves the demuxer as it was and its block has been discarded by the deferred function. The model with states after panics agrees with the one in which a panic ends the run.",
  "all formats, all histories of operations with panics at any places, all choices of Go",
  "A panic in the middle of an operation leaves whatever has been assigned so far; that it never leaves a half-made track, a queue entry or a map entry is a claim about every point at which code that is called can panic.",
  ["demuxer.go:79-90", "demuxer.go:134-144", "demuxer.go:171-204", "demuxer.go:206-250", "demuxer.go:254-301", "demuxer.go:434-476"])

p("Handlers and callbacks that panic",
  "The handler may panic at any call, the preprocess callback at any packet, and the caller may recover and go on. Then still: a packet is given to the handler at most once; with AutoFree a packet and its block are given back right after the handler has returned from it and nothing else is given back, so as many packets are not given back as the handler has panicked at; the handler sees nothing before probing ends, then a beginning of the announcements, then packets; after probing a panic of the handler changes nothing but the releases; a panic comes from the handler at the last call recorded, from the callback, or is one of C100.",
  "all behaviours of handler and callback (functions of all calls before), all histories, all formats, all choices of Go",
  "A test handler panics at one place; here it may panic at every place and the calls that follow depend on everything before.",
  ["demuxer.go:171-204", "demuxer.go:206-250", "demuxer.go:254-301", "demuxer.go:434-476"])

p("Where an operation ends when the handler panics or closes the demuxer",
  "With a handler that panics at some calls an operation makes exactly the calls it would make with a handler that does not, up to the first at which the handler panics, and panics there. Close sets the handler to nil, so a handler that calls Close in one of its methods makes the operation panic exactly if another call of the handler would follow in it. After probing every operation calls the handler at most once, so then Close in OnPacket is harmless; Close in OnNewTrack always panics, because OnTrackComplete is still to come. A demuxer that was closed before behaves as in C79.",
  "all handlers (functions of all calls before), all choices of where it closes, all demuxers and operations (replay and live: any state at all; the others: all histories)",
  "The handler may close at any call and the calls of one operation are not bounded: the end of probing announces all tracks and delivers all queued packets.",
  ["demuxer.go:254-301", "demuxer.go:434-476", "demuxer.go:482-485"])

p("A handler that gives its packets back itself",
  "A demuxer without AutoFree makes the calls of a demuxer with AutoFree but for the releases, is otherwise in the same state and panics at the same operations. So a handler that ends OnPacket with DiscardHeadPacket of the packet's buffer and FreePacket makes the two the same: every property of a demuxer with AutoFree holds of such a pair.",
  "all histories, panics that the caller recovers from included, all formats, all choices of Go",
  "It compares two runs over the same unbounded input.",
  ["demuxer.go:292-301", "demuxer.go:303-309", "demuxer.go:458-475"])

p("How much memory the buffers keep",
  "The array that a buffer keeps is bounded by what is in it: at most twice the largest number of waiting bytes (DirectDataPipeline) or elements (Queue, or its initial capacity), at most max(cap, (2H+3M)*3/2) for an RBBlockBuffer whose blocks have at most M bytes and that holds at most H bytes at each Write, at most max(cap, 3N/2) for a DirectBlockBuffer to which at most N bytes are written between two times it is empty; each buffer of a StreamsBuffer needs only what its own stream needs.",
  "all histories of any length, all capacities, all contents",
  "The bound must hold for histories of any length; a leak shows only after a long time.",
  ["collections/buffer_direct.go:28-95", "collections/buffer_rb.go:15-110", "streams_buffer.go:12-49", "direct_pipeline.go:13-26", "collections/queue.go:11-29"])

p("The demuxer and its pipeline in constant memory",
  "Let no payload of buffer i be longer than M_i, let buffer i have room for four such payloads, and, while the demuxer probes, for all bytes written to it since the beginning and two more payloads. Then for any number of packets, any DTS and any cutting into pieces the arrays of the StreamsBuffer keep the sizes that they were made with (2 MiB if the first payload was video, 576000 bytes otherwise), no call panics, and every packet is delivered with the bytes that were written. After probing at most one packet per buffer waits. A bound on the payloads alone is not enough: if DTS stand still, probing never ends and everything is kept.",
  "all orderly histories of any length, all payloads and pieces, all oracles that keep the data, any memory to begin with",
  "It depends on the interplay of queues, probing, ring and track registration over histories of any length; a leak or an overwritten packet shows after a long time only.",
  ["demuxer.go:171-301", "streams_buffer.go:5-49", "collections/buffer_rb.go:15-153"])

p("How long probing lasts, and what it keeps",
  "A packet ends probing if and only if it comes the time to probe (ProbeDuration, at least 200 ms) after the first packet of its buffer that was not refused. (True for FLV and JT1078. False for TS and PS: each duration is cut to whole milliseconds before they are added, so probing can last longer - counterexample; it never ends earlier.) Exactly: a packet ends probing if and only if the times between the packets of its buffer that were not refused, each cut to whole milliseconds, add up to the time to probe. Packets less than 1 ms apart never end probing: however many there are, the handler gets nothing and all of them are kept. If the packets of each buffer are at least k ms apart, then while probing at most (max(ProbeDuration, 200)-1)/k + 1 packets of each buffer are kept; and if the buffers have room for so many of the largest payloads and three more, they never grow, no call panics, and every packet is delivered with the bytes that were written, to the files of C94.",
  "all histories of packet input of any length, all DTS within 2^50, all settings of ProbeDuration, any cutting into pieces, any memory to begin with",
  "Rounding of each duration in floating point adds up over arbitrarily many packets; the bound on memory is about histories of any length.",
  ["demuxer.go:254-290", "av_packet.go:75-81", "packet_utils.go:9-12", "demuxer.go:171-252"])

p("Repackaging as AVCC and back",
  "A stream of Annex B frames is sent as MP4 extra data and AVCC frames (MP4ExtraData, AnnexBPacket2AVCC), and the receiver makes Annex B frames of it (ParseAVCDecoderConfigurationRecord or ParseHEVCDecoderConfigurationRecord, AVCCPacket2AnnexB): each frame comes back with the units it had. (False: H.264 frames lose their SEI units, and key frames get the parameter sets in front even if they have them - counterexamples. It holds exactly for the frames that are no key frames and, with H.264, have no SEI; a key frame that goes through n receivers has n copies of the sets in front of its units.)",
  "all parameter sets that fit into a record, all frames of clean units with any start codes, any number of senders and receivers, any packet and buffer of the receiver",
  "Composes conversions whose outputs are the inputs of the others, over all unit lists and any number of generations.",
  ["packet_utils.go:14-96", "codec_paraments.go:51-57", "codec_paraments.go:92-143", "avc/util.go:AVCC2AnnexB", "hevc/util.go:Mp4ToAnnexB"])

p("What a decoder sees in the file of a track",
  "Under the conditions of C94, and if the frames are made of NAL units, the file of an H.264 or H.265 track is an Annex B stream whose units are those of the frames, with the parameter sets of the track put in front of some of them; it has the same pictures in the same order, and a decoder of the file has for each picture the parameter sets that a decoder of the stream has for it. (The last is false if the parameter sets change: key frames without sets get those of the first key frame - counterexample. Proved for streams whose sets do not change.)",
  "all packet histories of PS, TS and JT1078 of any length that meet the conditions of C94, all unit lists",
  "The sets in force at a picture depend on the whole history before it.",
  ["packet_utils.go:17-40", "demuxer.go:171-252", "handler.go", "video_stream.go:94-180"])

p("The files of AAC tracks can be cut into their frames",
  "A byte string is a sequence of ADTS frames in at most one way, and cutting it with ReadADtsFixedHeader and FrameLength succeeds exactly if it is one and finds these frames. Under the conditions of C94, and if the packets of an AAC track are ADTS frames, a reader of its file finds exactly these frames, in order. So the frames of an AAC track can be told from its file. (The last is false of tracks without ADTS headers, as in FLV: the file holds the raw frames one behind the other, and different frames make the same file - counterexample.)",
  "all byte strings, all frame lists, all packet histories of PS, TS and JT1078 of any length that meet the conditions of C94",
  "Unique decodability is a statement about all pairs of frame lists; the file is the result of a whole history.",
  ["utils/aac_util.go:115-232", "handler.go:70-90", "video_stream.go:147-176", "demuxer.go:171-252"])

p("What a packet costs",
  "In a linked list made by Add and Remove, Get(k) and Remove(k) follow exactly k next pointers. For every history, a packet that comes into a queue of n packets costs exactly 0 steps if n = 0, 2(n-1) after probing, and (n-1) + n(n-1)/2 while probing. After probing n is at most 1, so packets cost nothing however many have come; while probing, n is at most the number of packets that fit into the time to probe if the packets of each buffer are apart in time. n+1 packets in one queue while probing cost n(n-1)(n+4)/6 steps together. (That one number of steps is enough for every packet is false: if DTS stands still, probing never ends and the n-th packet costs about n^2/2 steps - counterexample for every bound.)",
  "all lists, all indices, all histories of demuxers with packet objects and linked lists, with all choices of pool, handler and others",
  "Tests do not measure steps, and no finite number of packets shows that the cost per packet is unbounded.",
  ["demuxer.go:254-290", "collections/linked_list.go:16-78"])

p("How far packets of different tracks are out of order",
  "If packets come in the order of their DTS, the handler gets the packets buffered while probing in the order in which they begin, and all later packets in the order in which they end (DTS plus duration) and after everything that was buffered. So no packet is delivered after one that begins later than it ends, and if no packet lasts longer than D, no packet is delivered after one that begins more than D later. The packets of one track are never out of order. (That packets are delivered in the order of their DTS is false: a packet of a sparse track waits for the next one of its track, while packets of other tracks that begin later pass it - counterexample.)",
  "all histories of any length, all tracks, all map orders and sorting choices",
  "The order depends on the whole interleaving of all tracks and on where probing ends.",
  ["demuxer.go:254-302", "demuxer.go:434-476"])

p("Random access in the file of a video track",
  "A decoder that starts with a key frame in the file of an H.264 or H.265 track (PS, TS, JT1078, under the conditions of C94) has a parameter set of each needed type at every picture from there to the end of the file, if and only if the first unit of the frame has not the same header byte as the first parameter set of the track, or the frame itself has a set of each type in front of its first picture; the units of each frame in the file are given exactly. In FLV with H.264 (under the conditions of C99) a decoder can start with every key frame if the sets in the record are of the right types. (That a decoder can start with every key frame in PS, TS, JT1078 is false: a key frame that begins with an SPS but has no PPS gets nothing in front of it - counterexample.)",
  "all histories of any length, all frames made of NAL units, all key frames",
  "It is about every position in files of any length and every composition of frames; a test starts to decode at a few frames of one stream.",
  ["packet_utils.go:18-34", "handler.go:68-88"])

p("What the choices of the Go runtime may change",
  "If no two tracks of a demuxer are on one buffer (packets alone never make such tracks), a history of operations ends in the same state whatever the order that Go iterates the map of buffers in and the order that sort.Slice gives to packets with equal DTS; the calls to the outside are the same too, except for the order of packets with equal DTS among those handed over at the end of probing. Each track gets the same packets in the same order if no two of its packets have the same DTS; if no two packets at all have, nothing depends on these choices. (That nothing depends on them in general is false: which of two tracks comes first that begin at the same time is left open, and with two tracks announced for one buffer it is left open which of them gets a packet - counterexamples.)",
  "all histories of any length; all orders of iteration and all sorts that Go allows, different ones at every operation",
  "A test sees one order of iteration and one sort per run; map order is random, so a dependence on it shows up only now and then.",
  ["demuxer.go:326-334", "demuxer.go:434-476"])

p("Parsing and scanning take linear time",
  "FindStartCode, IsKeyFrame (both codecs) and SplitNalU take at most len+1 rounds of loops on every input, all searches together; AnnexB2AVCC takes at most 2*len+1 rounds and copied bytes; avc.ParseSPS takes at most 24*len+515 and hevc.ParseSPS at most 24*len+18 calls of ReadBit and rounds of loops, whatever counts the data announce (an SPS may announce 2^32-2 entries). The counted functions return what the functions return. The bounds of the three searches are met up to a factor of three: at least every third byte up to the place of the decision counts as a round. So are those of AnnexB2AVCC, where every byte written counts too. In both ParseSPS no bit is consumed without a step. Each read of fields or codes takes exactly two steps per bit. ParseNalUnits (called by nothing) never returns: it panics in the first round if there is no start code and runs forever otherwise.",
  "all byte sequences of any length",
  "Hostile lengths and counts are chosen by the sender; a test measures a few inputs and cannot show that no input makes the work quadratic or proportional to an announced count.",
  ["avc/util.go:15-43", "avc/util.go:67-100", "avc/util.go:183-223", "avc/util.go:301-312", "hevc/util.go:120-145", "avc/sps.go:29-344", "hevc/sps.go:32-155"])

p("Durations add up",
  "Once probing is over, the durations of the packets delivered of a track add up to the time from the first packet of the track that was not refused to the last packet given: in int64 arithmetic for all times, exactly for times within 2^62, in any order. Asked for in milliseconds (GetDuration(1000)) the durations add up to the time that passed, to the millisecond. (True for FLV and JT1078. False for TS and PS: each duration is cut to whole milliseconds, so the sum lags up to 1 ms per packet behind and without bound - counterexamples; 29.97 frames per second lose 11 ms each second.) It is exactly the sum of the cut differences and never more than the time that passed.",
  "all histories of packets whose times are within range, all tracks, any number of packets",
  "A sum of rounding errors only shows in long runs; tests compare single durations.",
  ["demuxer.go:253-300", "av_packet.go:GetDuration", "packet_utils.go:9"])

p("Detected rates are the rates of the sound",
  "Mono PCM at 8, 16, 32 or 48 kHz whose first packet is followed by the next when it has been played is reported with its sample rate when probing ends. (False: the time is cut to whole milliseconds; packets of 1024 samples at 48 kHz are reported with 16 samples per second - counterexample. Also all PCM tracks get the rate of the first, and two channels count as twice the rate - counterexamples.) For every history: the reported rate is the first in the table that bytes/ms of the first packet does not exceed, else the sample size; for n samples at rate r that last ms whole milliseconds it is r if and only if 2n < (r/500+1)*ms, so always if packets last whole milliseconds. Likewise for the bit rates of G.726.",
  "all histories whose tracks begin in order and in which one track has the codec; all packet sizes, times and rates of the tables",
  "Whether the quotient of two truncated numbers falls on the right side depends on packet size, rate and time base; tests try a few sizes, usually whole milliseconds.",
  ["demuxer.go:337-380", "demuxer.go:383-426", "demuxer.go:429-432"])

p("Packet objects come back to the pool",
  "Demuxers, handlers and the pool share packet objects by pointers. Whatever demuxers do in whatever order, if handlers only use and free packets of their own: after every operation each packet object ever made is in exactly one place - in the pool, in a queue of a demuxer, or in the hands of others; none gets lost. If the pool makes a packet only when it is empty, there are never more objects than were in use at once, and one; and from the moment at which all demuxers have found their tracks, with AutoFree, the number of objects is at most the larger of what it was then and the number of tracks and of packets that others hold, and one, however much is read.",
  "all numbers of demuxers, all interleavings of operations, all choices of the pool, of sorting and of map order, all fair handlers",
  "A packet that is dropped without being freed is only a little garbage: nothing fails, and memory grows slowly over days of streaming.",
  ["av_packet.go:29-35", "av_packet.go:90-135", "demuxer.go:252-290", "demuxer.go:292-301", "demuxer.go:434-476"])

p("Reading a configuration record into a used variable",
  "What is in an AVC or HEVC record variable before Unmarshal does not matter for what Unmarshal says and for the lists afterwards. (False: Unmarshal appends. An HEVC record without VPS and SPS is accepted if a whole one was read into the variable before; read twice, the first SPS of the variable is a PPS - counterexamples.) For every sequence of records read into one variable: the lists are those that C95 gives for the parameter sets of all of them; an HEVC record is accepted if and only if each kind of set was in it or before it; for AVC, acceptance does not depend on what was before, and the lists have the sets of all records.",
  "all sequences of well-formed records, all choices of capacity by append",
  "Tests read into new variables; whether stale sets decide about acceptance depends on the history of the variable.",
  ["avc/mp4.go:96-170", "hevc/mp4.go:133-209"])

p("Conversions write only to their buffer",
  "AVCCPacket2AnnexB and AnnexBPacket2AVCC change no byte of memory outside the buffer that make or OnBufferAlloc gave them. The packet's payload, bytes converted before and all slices of the stream keep their contents. The result is a part of that buffer, or one of the packet's own slices where nothing is converted; its bytes are those of the conversion of values. Without OnBufferAlloc all existing arrays stay as they are, and a converted result is new memory that later writes to existing arrays do not change. The same of AVCC2AnnexB, AnnexB2AVCC and hevc.Mp4ToAnnexB for a destination apart from the sources, also when Mp4ToAnnexB returns an error.",
  "all memories, packets, streams, payloads; all OnBufferAlloc that give a slice apart from the packet and the stream, of any length and contents",
  "Tests compare output bytes; a write outside the buffer or a source read after it was overwritten shows only for particular layouts of memory.",
  ["packet_utils.go:14-96", "avc/util.go:102-223", "hevc/util.go:38-87"])

p("Which packets AVCCPacket2AnnexB converts",
  "For every video packet of every stream AVCCPacket2AnnexB returns the packet's Annex B form if it has one and panics otherwise; the Annex B form is given by a specification of its own: the bytes kept from an earlier call; the payload as it is; the payload behind the parameter sets for a key frame that does not begin like them; for AVCC packets the units with start codes, behind the parameter sets for a key frame. In particular every H.265 packet whose payload consists of complete units with lengths of the size that the stream's record says is converted.",
  "all streams, packets, payloads, codec ids, configuration records; buffers of the size that is asked for",
  "Tests use a few packets with 4-byte lengths; the panic needs many small units and lengths of less than 4 bytes.",
  ["packet_utils.go:14-75", "hevc/util.go:38-87", "avc/util.go:102-181"])

p("Demuxers in different goroutines",
  "Any number of goroutines, each with a demuxer of its own and any handler that keeps to its packets and may pass them on to other goroutines, take turns after every single access to the packet pool or to a packet object, in any order. No two are ever about to access the same packet, and none is about to access a packet in the pool or one on its way to another goroutine. A goroutine that is done has done exactly what a demuxer with packet values does with the same operations alone: same calls with the same packets, same tracks, same queues, same panics. Two goroutines never have a packet in common at their end. Each goroutine can always go on until it is done. No packet gets lost: between two runs of the garbage collector, every packet that was in the pool or was made since is in the pool again, on its way between goroutines, in the queues of one, or kept by its handler.",
  "all numbers of goroutines, histories of operations, handlers, schedules, choices of the pool and of the garbage collector, earlier uses of the pool",
  "A race needs a particular interleaving of accesses; tests run one demuxer.",
  ["demuxer.go:171-301", "demuxer.go:434-476", "av_packet.go:29-135"])

p("Mp4ToAnnexB on a writer that is too small",
  "avc.Mp4ToAnnexB drops the errors of its writer. For every byte string, extra data and writer it neither panics nor writes behind the end of the writer. What is written is each start code, each unit and each copy of the extra data whole or not at all, in order, where one that does not fit does not keep later ones from being written. It is the complete conversion exactly if there is room for all of it; without extra data, room for as many bytes as the packet has is enough. With less room, what is written is the conversion of the first units of the packet.",
  "all byte strings, extra data, writers and positions of the writer",
  "Which pieces fit depends on all lengths together; the function returns nothing that a test could check.",
  ["avc/util.go:126-145", "avc/util.go:225-253", "bufio/bytes_wirter.go:64-71"])

p("Conversions to Annex B on a destination of any length",
  "avc.AVCC2AnnexB and hevc.Mp4ToAnnexB write to a slice that the caller gives. For every destination, packet and extra data: if there is room for everything up to the start code of the last unit, the conversion is written as far as there is room, the rest of the destination keeps its bytes, and the length of the whole conversion is returned (for H.265: an error if something that is not a unit follows); otherwise there is a panic. A count not larger than the destination therefore means that everything is written. A destination that is too short leads to a panic or an error.",
  "all byte strings, extra data, destinations and sizes of the length field up to 7",
  "The result depends on where in the packet the room ends; the cut happens only in the last unit, so a test with a destination that is much too short sees the panic only.",
  ["avc/util.go:102-124", "avc/util.go:147-181", "hevc/util.go:38-87"])

p("Marshal of any lists of parameter sets",
  "For any lists of byte strings (each below 2^62 bytes), Marshal of AVCDecoderConfigurationRecord and HEVCDecoderConfigurationRecord ends as a small specification says: with the record; with an error if a list is empty or the record would be longer than 1024 bytes; with a panic where a set has no unit (empty, or up to three zero bytes), where the last SPS has fewer than four bytes (AVC), or where the first set of an array is a bare start code (HEVC). What comes first decides. No panic if all sets are long enough (AVC: SPS of 8 bytes, PPS of 4 bytes; HEVC: 5 bytes). A record that is returned gives its sets back when read exactly if there are at most 31 SPS and 255 PPS (HEVC with the right types: exactly one SPS). Marshal returns a record or an error.",
  "all lists of byte strings",
  "The outcome depends on the order in which room, emptiness and missing bytes are noticed; tests give sets from a real encoder.",
  ["avc/mp4.go:42-94", "hevc/mp4.go:75-131"])

p("Time stamps of a clock that starts again",
  "Let the time stamps of a track be its true times modulo m (2^33 in MPEG streams, 2^32 in FLV). For every history: the durations that are delivered are the times that passed, less m for each restart of the clock in between, so they are right modulo m and add up to the time that passed less m per restart. The order of a track is kept whenever its stamps increase while probing lasts, whatever they do later. When the clock starts again r times while probing, probing goes on until r turns of the clock and the probing time have passed (up to a millisecond per restart), and what came after the restart is delivered before what came before. Packets of a track come in their order with the times that passed as durations, also across a restart of the clock.",
  "all histories of the demuxer, all moduli up to 2^62 (probing: 2^50), all true times",
  "A 33-bit clock starts again every 26.5 hours; a test that meets the restart during the 200 ms of probing has to be made on purpose.",
  ["demuxer.go:254-290", "demuxer.go:434-475", "av_packet.go:73-79"])

p("The bit reader on any io.Reader",
  "GolombBitReader on an io.Reader that answers each Read as it likes, also after errors: ReadBit delivers the bits of the buffer after each answer without an error, and each error once; fields and Exp-Golomb codes are read from these bits as from bytes (C11, C12, C13, C92); if an error comes before the end of a field or code word, it is returned, the bits in front of it are lost and reading goes on behind it; at the end there is io.EOF for ever. If the reader returns a byte or an error but never both or neither, the bits over all errors are those of the stream. The bits are those of the stream on every io.Reader.",
  "all sequences of answers of the reader, all states, all widths up to 64 (32), all codes below 2^33-1",
  "Tests use bytes.Reader, which never returns a byte together with an error, nor neither.",
  ["bufio/golomb_reader.go:13-89"])

p("Cursors that share memory",
  "Any number of readers and writers on slices of one memory, in any order of calls, with appends to the slices that they returned: every byte is that of the last write to its place, or what it was; a write goes to the next bytes of the slice of its cursor and nowhere else, or nothing happens; typed reads give the number whose digits are in memory now; ReadBytes, RemainingBytes and WrittenBytes return slices of that memory that go on to its end; so a write is seen through all cursors and slices that share its place and through no others, also after Reset and when Write copies from its own slice. Appending to what ReadBytes returned replaces the data that the reader reads next exactly if it fits into the slice of the reader.",
  "all memories, all sets of cursors on valid slices (overlapping or not), all histories of calls with 64-bit arguments and of appends",
  "Tests use one cursor on a fresh slice; aliasing of returned slices and of several cursors never shows there.",
  ["bufio/bytes_buffer.go:27-84", "bufio/bytes_reader.go:28-81", "bufio/bytes_wirter.go:28-81"])

p("The bit readers agree with each other and with the bit writer",
  "A BitsReader and a GolombBitReader before the same bit read the same number of any width up to 64 and are before the same bit again; where fewer bits are left than asked for, BitsReader gives the number made of those and GolombBitReader returns EOF. Any sequence of fixed-width fields and of ue(v) codes (each written as two fields) that is written with a BitsWriter at any bit is read back in full by every GolombBitReader before that bit, which is then before the bits that were behind, unchanged. A sequence parameter set of H.264 (profiles and scaling matrices known to the parser) or of H.265 that is written with a BitsWriter in fields of any widths is parsed to the values that were written.",
  "all data, all bit offsets, all widths up to 64, all sequences of fields and of codes v < 2^33-1 that fit",
  "Tests read fixed samples with one reader; they never compare the two readers nor mix unaligned fields with codes.",
  ["bufio/bits_reader.go:4-35", "bufio/bits_writer.go:3-34", "bufio/golomb_reader.go:13-77"])

if __name__ == "__main__":
    with open("/verif/properties.jsonl", "w", encoding="utf-8") as f:
        for x in P:
            f.write(json.dumps(x, ensure_ascii=False) + "\n")
    print(len(P))
    import sys
    if "-l" in sys.argv:
        for x in P: print(x["id"], x["title"])
