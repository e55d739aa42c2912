{
 "claims": [
  {
   "property": "C01",
   "status": "proved",
   "theorems": [
    "Avf.C01_write_read"
   ],
   "note": "WriteBits then ReadBits returns the value written"
  },
  {
   "property": "C02",
   "status": "proved",
   "theorems": [
    "Avf.C02_writeBits_frame",
    "Avf.C02_writeBits_before",
    "Avf.C02_panics_iff"
   ],
   "note": "WriteBits touches only the addressed bits"
  },
  {
   "property": "C03",
   "status": "proved",
   "theorems": [
    "Avf.C03_fields_roundtrip"
   ],
   "note": "BitsWriter/BitsReader field sequences round-trip"
  },
  {
   "property": "C04",
   "status": "proved",
   "theorems": [
    "Avf.C04_readBits",
    "Avf.C04_readBits_value",
    "Avf.C04_readBits_negative_width",
    "Avf.C04_readBits_negative_start_panics",
    "Avf.C04_readBits_before",
    "Avf.C04_panics_iff"
   ],
   "note": "ReadBits reads MSB first and stops at the end of the data"
  },
  {
   "property": "C05",
   "status": "proved",
   "theorems": [
    "Avf.BytesBuf.C05_cursor_in_range",
    "Avf.BytesBuf.C05_views",
    "Avf.BytesBuf.C05_clear_reset",
    "Avf.BytesBuf.C05_no_panic"
   ],
   "note": "Byte cursor stays inside its buffer"
  },
  {
   "property": "C06",
   "status": "proved",
   "theorems": [
    "Avf.BytesBuf.C06_error_iff_and_no_effect"
   ],
   "note": "A failed cursor operation has no effect"
  },
  {
   "property": "C07",
   "status": "proved",
   "theorems": [
    "Avf.BytesBuf.C07_typed_reads",
    "Avf.BytesBuf.C07_readBytes"
   ],
   "note": "Typed reads are big-endian and advance by their width"
  },
  {
   "property": "C08",
   "status": "proved",
   "theorems": [
    "Avf.BytesBuf.C08_write_then_read"
   ],
   "note": "BytesWriter output is read back by BytesReader"
  },
  {
   "property": "C09",
   "status": "proved",
   "theorems": [
    "Avf.BytesBuf.C09_typed_writes",
    "Avf.BytesBuf.C09_frame"
   ],
   "note": "Typed writes change only their own window"
  },
  {
   "property": "C10",
   "status": "partial",
   "theorems": [
    "Avf.BytesBuf.C10_readBytes_violated",
    "Avf.BytesBuf.C10_readBytes_partial"
   ],
   "note": "False for negative sizes (witness C10_readBytes_violated); the partial theorem says exactly which negative sizes panic."
  },
  {
   "property": "C11",
   "status": "proved",
   "theorems": [
    "Avf.Golomb.C11_readBits",
    "Avf.Golomb.C11_readBits32",
    "Avf.Golomb.C11_readBits64",
    "Avf.Golomb.C11_readBit",
    "Avf.Golomb.C11_start"
   ],
   "note": "GolombBitReader delivers the bits of the stream in order"
  },
  {
   "property": "C12",
   "status": "proved",
   "theorems": [
    "Avf.Golomb.C12_ue_roundtrip"
   ],
   "note": "Exp-Golomb decoding inverts encoding"
  },
  {
   "property": "C13",
   "status": "partial",
   "theorems": [
    "Avf.Golomb.C13_se_violated",
    "Avf.Golomb.C13_se_partial",
    "Avf.Golomb.C13_se_mod_partial"
   ],
   "note": "False for negative values (witness); proved: exact for v >= 0, result 2^63+v for v < 0, code word consumed exactly."
  },
  {
   "property": "C14",
   "status": "proved",
   "theorems": [
    "Avf.C14_put_get",
    "Avf.C14_get_put",
    "Avf.C14_panic_iff"
   ],
   "note": "24-bit big-endian accessors are inverse"
  },
  {
   "property": "C15",
   "status": "proved",
   "theorems": [
    "Avf.RingBuf.C15_ringBuffer_is_bounded_fifo",
    "Avf.RingBuf.C15_spec_bounded",
    "Avf.RingBuf.C15_capacity_zero"
   ],
   "note": "RingBuffer is a bounded FIFO that overwrites the oldest"
  },
  {
   "property": "C16",
   "status": "proved",
   "theorems": [
    "Avf.RingBuf.C16_queue_is_deque"
   ],
   "note": "Queue is an unbounded deque"
  },
  {
   "property": "C17",
   "status": "proved",
   "theorems": [
    "Avf.LList.C17_linkedList_is_list",
    "Avf.LList.C17_negative_index_stale",
    "Avf.LList.C17_negative_index_corrupts"
   ],
   "note": "LinkedList behaves like a list"
  },
  {
   "property": "C18",
   "status": "proved",
   "theorems": [
    "Avf.RefCounter.C18_exactly_one_release_sees_zero",
    "Avf.RefCounter.C18_new"
   ],
   "note": "ReferenceCounter: exactly one release sees zero"
  },
  {
   "property": "C19",
   "status": "proved",
   "theorems": [
    "Avf.C19_direct_buffer"
   ],
   "note": "DirectBlockBuffer.Fetch returns what was written"
  },
  {
   "property": "C20",
   "status": "proved",
   "theorems": [
    "Avf.C20_fetched_blocks_immutable"
   ],
   "note": "Fetched blocks of a DirectBlockBuffer are immutable until popped"
  },
  {
   "property": "C21",
   "status": "partial",
   "theorems": [
    "Avf.C21_old_buffer_is_sealed",
    "Avf.C21_split_off_violated",
    "Avf.C21_new_buffer_panics_iff",
    "Avf.C21_split_off_partial",
    "Avf.C21_ring_split_off_violated",
    "Avf.C21_ring_split_off"
   ],
   "note": "The handover clause is false (witness): the new buffer panics on its first Alloc exactly in the cases of C21_new_buffer_panics_iff. Proved: sealing of the old buffer, and the contract for a SplitOff before anything was written. For the ring, C21_ring_split_off says exactly what happens: all of the memory is handed over as free, whatever it holds."
  },
  {
   "property": "C22",
   "status": "proved",
   "theorems": [
    "Avf.C22_ring_fetch"
   ],
   "note": "RBBlockBuffer.Fetch returns what was written"
  },
  {
   "property": "C23",
   "status": "partial",
   "theorems": [
    "Avf.C23_fetched_blocks_immutable_violated",
    "Avf.C23_fetched_blocks_immutable_partial",
    "Avf.C23_light_load_partial",
    "Avf.C23_full_overwrites",
    "Avf.C23_second_growth_loses_count"
   ],
   "note": "False (two witnesses). The two events do harm whenever they happen: C23_full_overwrites, C23_second_growth_loses_count. Proved for every history avoiding exactly the two events, and, from the caller's side only, for every history that leaves room for two blocks."
  },
  {
   "property": "C24",
   "status": "proved",
   "theorems": [
    "Avf.C24_streams_independent",
    "Avf.C24_fetched_slices_independent",
    "Avf.C24_index_gap_panics"
   ],
   "note": "Streams in a StreamsBuffer are independent"
  },
  {
   "property": "C25",
   "status": "proved",
   "theorems": [
    "Avf.C25_direct_pipeline",
    "Avf.C25_direct_pipeline_total",
    "Avf.C25_fetched_slice_overwritten",
    "Avf.C25_seek_past_end_panics"
   ],
   "note": "DirectDataPipeline.Fetch returns what was written"
  },
  {
   "property": "C26",
   "status": "proved",
   "theorems": [
    "Avf.C26_find_start_code",
    "Avf.C26_find_start_code2"
   ],
   "note": "FindStartCode finds the first start code"
  },
  {
   "property": "C27",
   "status": "proved",
   "theorems": [
    "Avf.C27_find_with_reader"
   ],
   "note": "FindStartCodeWithReader consumes up to the NAL header"
  },
  {
   "property": "C28",
   "status": "proved",
   "theorems": [
    "Avf.C28_dispatch",
    "Avf.C28_avc_key_frame",
    "Avf.C28_headers"
   ],
   "note": "H.264 key frame detection"
  },
  {
   "property": "C29",
   "status": "proved",
   "theorems": [
    "Avf.C29_hevc_key_frame"
   ],
   "note": "H.265 key frame detection"
  },
  {
   "property": "C30",
   "status": "proved",
   "theorems": [
    "Avf.C30_exact",
    "Avf.C30_split",
    "Avf.C30_short_panics",
    "Avf.C30_split_annexB"
   ],
   "note": "C30_exact: the pieces of every string, well framed or not; pieces_existsUnique: they exist and are unique."
  },
  {
   "property": "C31",
   "status": "proved",
   "theorems": [
    "Avf.C31_remove_start_code",
    "Avf.C31_panic_iff"
   ],
   "note": "RemoveStartCode strips exactly a leading start code"
  },
  {
   "property": "C32",
   "status": "proved",
   "theorems": [
    "Avf.C32_decompose",
    "Avf.C32_avcc_to_annexB",
    "Avf.C32_fits"
   ],
   "note": "AVCC to Annex B conversion"
  },
  {
   "property": "C33",
   "status": "proved",
   "theorems": [
    "Avf.C33_extra_data",
    "Avf.C33_not_inserted",
    "Avf.C33_inserted"
   ],
   "note": "AVCC2AnnexB inserts parameter sets before an IDR"
  },
  {
   "property": "C34",
   "status": "partial",
   "theorems": [
    "Avf.C34_exact",
    "Avf.C34_fits",
    "Avf.C34_annexB_to_avcc_partial",
    "Avf.C34_no_start_code",
    "Avf.C34_empty_unit_violated"
   ],
   "note": "C34_exact gives the outcome for every byte string and destination (units as seen by the code, AnnexUnits; unique); clean units come back exactly (C34_annexB_to_avcc_partial). The comment in the code also promises that empty units are skipped, which is false (C34_empty_unit_violated)."
  },
  {
   "property": "C35",
   "status": "proved",
   "theorems": [
    "Avf.C35_round_trip"
   ],
   "note": "AVCC -> Annex B -> AVCC is the identity"
  },
  {
   "property": "C36",
   "status": "partial",
   "theorems": [
    "Avf.C36_exact",
    "Avf.C36_panics_iff",
    "Avf.C36_clean",
    "Avf.C36_growth",
    "Avf.C36_claim_violated",
    "Avf.C36_total_partial",
    "Avf.C36_unchanged",
    "Avf.C36_repeat"
   ],
   "note": "False as stated (C36_claim_violated: 257 units with short start codes). C36_exact and C36_panics_iff say exactly when it succeeds, for every payload; C36_total_partial covers every payload with at most 256 NAL headers, also with a buffer of the caller."
  },
  {
   "property": "C37",
   "status": "proved",
   "theorems": [
    "Avf.C37_mp4_to_annexB"
   ],
   "note": "MP4 to Annex B through a writer"
  },
  {
   "property": "C38",
   "status": "partial",
   "theorems": [
    "Avf.C38_exact",
    "Avf.C38_panics_iff",
    "Avf.C38_many_sps",
    "Avf.C38_one_sps_partial",
    "Avf.C38_too_many",
    "Avf.C38_two_sps_violated",
    "Avf.C38_truncated_violated"
   ],
   "note": "False twice (C38_two_sps_violated, C38_truncated_violated). C38_exact gives the outcome on every byte string (result, error or panic) by a specification on lists; C38_panics_iff says exactly which records panic, C38_many_sps what happens with several SPS; records with one SPS: exact result below 131 PPS, an error from there on."
  },
  {
   "property": "C39",
   "status": "proved",
   "theorems": [
    "Avf.C39_exact",
    "Avf.C39_panics_iff",
    "Avf.C39_avc_parameter_sets",
    "Avf.C39_empty_unit_violated"
   ],
   "note": "Holds as stated. C39_empty_unit_violated shows that the restriction to non-empty units is needed: an empty one panics. C39_exact, C39_panics_iff: the outcome for every payload, well framed or not."
  },
  {
   "property": "C40",
   "status": "proved",
   "theorems": [
    "Avf.C40_exact",
    "Avf.C40_panics_iff",
    "Avf.C40_hevc_parameter_sets"
   ],
   "note": "C40_exact, C40_panics_iff: the outcome for every payload, well framed or not."
  },
  {
   "property": "C41",
   "status": "proved",
   "theorems": [
    "Avf.C41_marshal",
    "Avf.C41_round_trip",
    "Avf.C41_too_big",
    "Avf.C41_missing",
    "Avf.C41_32_sps_violated"
   ],
   "note": "Holds as stated. C41_32_sps_violated shows that the limit of 31 SPS is needed; above 1024 bytes and without SPS or PPS there is an error (C41_too_big, C41_missing)."
  },
  {
   "property": "C42",
   "status": "proved",
   "theorems": [
    "Avf.C42_record",
    "Avf.C42_not_record",
    "Avf.C42_total"
   ],
   "note": "AVC record Unmarshal is total and exact"
  },
  {
   "property": "C43",
   "status": "proved",
   "theorems": [
    "Avf.C43_record",
    "Avf.C43_not_record",
    "Avf.C43_total"
   ],
   "note": "AVC ExtraDataToAnnexB"
  },
  {
   "property": "C44",
   "status": "partial",
   "theorems": [
    "Avf.C44_marshal",
    "Avf.C44_too_big",
    "Avf.C44_last_sps_partial",
    "Avf.C44_one_sps_partial",
    "Avf.C44_two_sps_violated"
   ],
   "note": "False for two or more SPS (C44_two_sps_violated); C44_last_sps_partial says exactly what comes back: only the last SPS."
  },
  {
   "property": "C45",
   "status": "proved",
   "theorems": [
    "Avf.C45_total",
    "Avf.C45_record",
    "Avf.C45_not_record",
    "Avf.C45_pps_among_sps_violated"
   ],
   "note": "Holds as stated. C45_pps_among_sps_violated is a disagreement found on the way: a PPS array before the SPS array puts PPS into the SPS list."
  },
  {
   "property": "C46",
   "status": "proved",
   "theorems": [
    "Avf.C46_hevc_ok",
    "Avf.C46_hevc_err",
    "Avf.C46_decompose"
   ],
   "note": "HEVC length-prefixed to Annex B conversion"
  },
  {
   "property": "C47",
   "status": "proved",
   "theorems": [
    "Avf.C47_unescape",
    "Avf.C47_escape_injective"
   ],
   "note": "Emulation prevention removal"
  },
  {
   "property": "C48",
   "status": "partial",
   "theorems": [
    "Avf.C48_parse_partial",
    "Avf.C48_standard_size",
    "Avf.C48_standard_size_420",
    "Avf.C48_claim_violated",
    "Avf.C48_scaling444_violated",
    "Avf.C48_standard_size_violated"
   ],
   "note": "Proved for all syntactically valid sets except profiles 128/134/135/138/139 and 4:4:4 scaling matrices, for which the statement is false (C48_claim_violated, C48_scaling444_violated). C48_standard_size says exactly when the size is the standard's; C48_standard_size_violated is the interlaced counterexample."
  },
  {
   "property": "C49",
   "status": "proved",
   "theorems": [
    "Avf.C49_panic_iff"
   ],
   "note": "H.264 SPS parsing never panics and terminates"
  },
  {
   "property": "C50",
   "status": "partial",
   "theorems": [
    "Avf.C50_claim_violated",
    "Avf.C50_partial",
    "Avf.C50_size",
    "Avf.C50_timing",
    "Avf.C50_exact"
   ],
   "note": "False as stated (C50_claim_violated: 25 fps becomes 699050 fps). C50_partial: equal when the parsed part needs no emulation prevention. C50_size: when the part before the VUI needs none and the escaped unit is accepted, everything but the frame rate is right; C50_timing: when only the timing fields need it, the unit is accepted and only the frame rate differs. C50_exact: exactly what is read from an escaped unit, and exactly when it is the same as for the unescaped one."
  },
  {
   "property": "C51",
   "status": "proved",
   "theorems": [
    "Avf.C51_parse"
   ],
   "note": "H.265 SPS parsing recovers the encoded picture size"
  },
  {
   "property": "C52",
   "status": "proved",
   "theorems": [
    "Avf.C52_panic_iff"
   ],
   "note": "H.265 SPS parsing never panics"
  },
  {
   "property": "C53",
   "status": "proved",
   "theorems": [
    "Avf.C53_write",
    "Avf.C53_write_short",
    "Avf.C53_read",
    "Avf.C53_round_trip",
    "Avf.C53_read_bad"
   ],
   "note": "ADTS header round-trip"
  },
  {
   "property": "C54",
   "status": "proved",
   "theorems": [
    "Avf.C54_layout",
    "Avf.C54_parse",
    "Avf.C54_parse_bad",
    "Avf.C54_adts_to_config",
    "Avf.C54_escapes_ignored"
   ],
   "note": "ADTS header to AudioSpecificConfig"
  },
  {
   "property": "C55",
   "status": "partial",
   "theorems": [
    "Avf.C55_claim_violated",
    "Avf.C55_rate_of_index_partial",
    "Avf.C55_index_of_rate_partial"
   ],
   "note": "False (C55_claim_violated): GetSampleRateIndex uses the rate as a key. Proved: what it returns outside 0..15, and that GetSampleRateFromFrequency is the table of the standard."
  },
  {
   "property": "C56",
   "status": "proved",
   "theorems": [
    "Avf.C56_range",
    "Avf.C56_panic",
    "Avf.C56_string",
    "Avf.C56_string_negative"
   ],
   "note": "RandomIntInRange stays in range"
  },
  {
   "property": "C57",
   "status": "proved",
   "theorems": [
    "Avf.C57_accurate",
    "Avf.C57_below_two",
    "Avf.C57_odd",
    "Avf.C57_monotone",
    "Avf.C57_identity",
    "Avf.C57_exact_to_multiple",
    "Avf.C57_milliseconds",
    "Avf.C57_there_and_back",
    "Avf.C57_back_and_there",
    "Avf.C57_claim_first_version_violated",
    "Avf.C57_not_exact_truncation",
    "Avf.C57_not_reversible"
   ],
   "note": "The first version of the error bound was false and is kept as C57_claim_first_version with its refutation; the statement now bounds the result."
  },
  {
   "property": "C58",
   "status": "proved",
   "theorems": [
    "Avf.C58_distinct",
    "Avf.C58_video",
    "Avf.C58_audio",
    "Avf.C58_free",
    "Avf.C58_freed",
    "Avf.C58_double_free"
   ],
   "note": "Recycled packets carry no stale state"
  },
  {
   "property": "C59",
   "status": "proved",
   "theorems": [
    "Avf.C59_add_track",
    "Avf.C59_refused",
    "Avf.C59_one_per_type",
    "Avf.C59_index_stable",
    "Avf.C59_completed",
    "Avf.C59_find",
    "Avf.C59_find_type"
   ],
   "note": "Track registration"
  },
  {
   "property": "C60",
   "status": "proved",
   "theorems": [
    "Avf.C60_dense",
    "Avf.C60_media_type",
    "Avf.C60_injective"
   ],
   "note": "Buffer indices are stable and distinct"
  },
  {
   "property": "C61",
   "status": "proved",
   "theorems": [
    "Avf.C61_order",
    "Avf.C61_when",
    "Avf.C61_grows"
   ],
   "note": "Demuxer callback order"
  },
  {
   "property": "C62",
   "status": "partial",
   "theorems": [
    "Avf.C62_exact_probing",
    "Avf.C62_exact",
    "Avf.C62_lanes_are_tracks",
    "Avf.C62_conserved",
    "Avf.C62_held_back",
    "Avf.C62_in_order_partial",
    "Avf.C62_each_once_partial",
    "Avf.C62_packet_input",
    "Avf.C62_probing_partial",
    "Avf.C62_audio_input",
    "Avf.C62_video_input",
    "Avf.C62_claim_violated"
   ],
   "note": "False if a track's first packet comes before that of a track with a smaller index (C62_claim_violated): the queues get mixed and packets are withheld. Proved for all histories: nothing is lost, duplicated or altered (C62_conserved), what is taken is the input (C62_audio_input, C62_video_input). Proved when first packets come in index order, which holds for every history without explicit track events (C62_packet_input): exact per-track contents and durations. What happens for every history is C62_exact_probing and C62_exact: the same with lanes in place of tracks, and lanes are tracks exactly if first packets come in index order (C62_lanes_are_tracks)."
  },
  {
   "property": "C63",
   "status": "proved",
   "theorems": [
    "Avf.C63_sorted",
    "Avf.C63_input_order_firsts",
    "Avf.C63_input_order",
    "Avf.C63_settled",
    "Avf.C63_orderly",
    "Avf.C63_order_lost"
   ],
   "note": "Packets buffered while probing are delivered in DTS order"
  },
  {
   "property": "C64",
   "status": "partial",
   "theorems": [
    "Avf.C64_queued_orderly",
    "Avf.C64_own_orderly_partial",
    "Avf.C64_orderly_needed",
    "Avf.C64_blocks",
    "Avf.C64_count",
    "Avf.C64_freed",
    "Avf.C64_manual",
    "Avf.C64_queued_blocks",
    "Avf.C64_own_block_partial",
    "Avf.C64_claim_violated"
   ],
   "note": "False for decreasing DTS (C64_claim_violated): the block discarded after a delivery is the oldest of the buffer, not the packet's own. Proved for all histories: no underflow, counts, one discard and one free per delivery (C64_blocks, C64_count, C64_freed, C64_manual); exact contents for packet input (C64_queued_blocks) and for orderly histories with announced tracks (C64_queued_orderly), with strictly increasing DTS also the own block (C64_own_block_partial, C64_own_orderly_partial). Orderly is needed: C64_orderly_needed."
  },
  {
   "property": "C65",
   "status": "partial",
   "theorems": [
    "Avf.C65_once",
    "Avf.C65_forced",
    "Avf.C65_exact",
    "Avf.C65_on_packet_partial",
    "Avf.C65_packet_input",
    "Avf.C65_claim_violated",
    "Avf.C65_setting",
    "Avf.C65_exact_calls"
   ],
   "note": "The duration clause is false when queues are mixed (C65_claim_violated); proved for every history without explicit track events (C65_packet_input). Once-only completion holds for all histories. Exactly when a packet ends probing, for all histories: C65_exact. The time to probe is what SetProbeDuration was last called with (C65_setting), so that is stated in terms of the calls alone (C65_exact_calls)."
  },
  {
   "property": "C66",
   "status": "proved",
   "theorems": [
    "Avf.C66_index",
    "Avf.C66_lookup",
    "Avf.C66_order_free",
    "Avf.C66_any_input_false"
   ],
   "note": "Proved for packet input. C66_any_input_false shows that the restriction is needed: two OnNew*Track calls for one buffer make the lookup depend on map order."
  },
  {
   "property": "C67",
   "status": "partial",
   "theorems": [
    "Avf.C67_g726",
    "Avf.C67_pcm_partial",
    "Avf.C67_pcm_above",
    "Avf.C67_unchanged",
    "Avf.C67_claim_violated"
   ],
   "note": "G.726 clause and the PCM clause up to 96 bytes per ms are proved; above it the code stores the sample size as sample rate (C67_claim_violated), for every packet (C67_pcm_above)."
  },
  {
   "property": "C68",
   "status": "proved",
   "theorems": [
    "Avf.C68_h264",
    "Avf.C68_h264_total",
    "Avf.C68_h265",
    "Avf.C68_h265_fits",
    "Avf.C68_no_parameters",
    "Avf.C68_claim_violated",
    "Avf.C68_h265_new_violated",
    "Avf.C68_h265_malformed",
    "Avf.C68_annexB_same",
    "Avf.C68_annexB_key",
    "Avf.C68_annexB_default",
    "Avf.C68_annexB_not_key",
    "Avf.C68_repeat",
    "Avf.C68_not_video"
   ],
   "note": "The stated clauses hold. C68_claim_violated, C68_no_parameters and C68_h265_new_violated are the panics found on the way: no codec parameters, and H.265 AVCC packets with codec data made by NewHEVCCodecData (length size 0)."
  },
  {
   "property": "C69",
   "status": "proved",
   "theorems": [
    "Avf.C69_avc_new",
    "Avf.C69_avc_new_iff",
    "Avf.C69_avc_mp4",
    "Avf.C69_avc_round_trip",
    "Avf.C69_avc_too_big",
    "Avf.C69_avc_record",
    "Avf.C69_avc_record_iff",
    "Avf.C69_hevc_new",
    "Avf.C69_hevc_new_vps",
    "Avf.C69_hevc_new_iff",
    "Avf.C69_hevc_mp4",
    "Avf.C69_hevc_round_trip",
    "Avf.C69_hevc_too_big",
    "Avf.C69_hevc_empty_vps_panics",
    "Avf.C69_hevc_record",
    "Avf.C69_hevc_record_total"
   ],
   "note": "Codec data accessors agree"
  },
  {
   "property": "C70",
   "status": "proved",
   "theorems": [
    "Avf.C70_header_fields"
   ],
   "note": "HEVC record header fields are the bit fields of the standard"
  },
  {
   "property": "C71",
   "status": "proved",
   "theorems": [
    "Avf.C71_record",
    "Avf.C71_not_record",
    "Avf.C71_total"
   ],
   "note": "HEVC ExtraDataToAnnexB"
  },
  {
   "property": "C72",
   "status": "partial",
   "theorems": [
    "Avf.C72_step",
    "Avf.C72_exact",
    "Avf.C72_packets_exact",
    "Avf.C72_sound_partial",
    "Avf.C72_flv",
    "Avf.C72_no_key_frames",
    "Avf.C72_short_panics",
    "Avf.C72_bad_frames",
    "Avf.C72_claim_violated",
    "Avf.C72_bad_tracks"
   ],
   "note": "False for key frames that are not well framed (C72_claim_violated, C72_bad_frames). Proved for all histories whose key frames are well framed (C72_sound_partial), for FLV (C72_flv) and without H.264/H.265 key frames (C72_no_key_frames). C72_exact, C72_step, C72_packets_exact: exactly which histories panic, for any operations."
  },
  {
   "property": "C73",
   "status": "proved",
   "theorems": [
    "Avf.C73_source",
    "Avf.C73_key_frame",
    "Avf.C73_audio",
    "Avf.C73_refused"
   ],
   "note": "C73_source assumes well framed key frames (otherwise the demuxer may panic, C72). The third case of CameFrom, a video packet said to be AAC, gets the configuration of an AAC track."
  },
  {
   "property": "C74",
   "status": "partial",
   "theorems": [
    "Avf.C74_exact",
    "Avf.C74_one_packet_partial",
    "Avf.C74_packet_input",
    "Avf.C74_again",
    "Avf.C74_claim_violated"
   ],
   "note": "False for announced tracks without packets (C74_claim_violated). Full claim proved for packet input (C74_packet_input); exact behaviour when first packets come in index order (C74_one_packet_partial). Exact behaviour for all histories: C74_exact."
  },
  {
   "property": "C75",
   "status": "partial",
   "theorems": [
    "Avf.C75_audio",
    "Avf.C75_video",
    "Avf.C75_lookup",
    "Avf.C75_one_per_type_partial",
    "Avf.C75_claim_violated",
    "Avf.C75_places",
    "Avf.C75_count"
   ],
   "note": "The contract of the calls holds (C75_audio, C75_video, C75_lookup). At most one track per type is false for packets on several buffers (C75_claim_violated); proved when each type has one buffer (C75_one_per_type_partial). For every history: tracks of one type are on different buffers, all but the first of a type come from packets (C75_places), and there are at most as many as the type has buffers (C75_count)."
  },
  {
   "property": "C76",
   "status": "proved",
   "theorems": [
    "Avf.C76_type_total",
    "Avf.C76_type_injective",
    "Avf.C76_codec_injective",
    "Avf.C76_codec_table",
    "Avf.C76_type_table",
    "Avf.C76_file_injective"
   ],
   "note": "Names of media types, codecs and files"
  },
  {
   "property": "C77",
   "status": "partial",
   "theorems": [
    "Avf.C77_contents",
    "Avf.C77_contents_partial",
    "Avf.C77_total",
    "Avf.C77_demuxer",
    "Avf.C77_claim_violated",
    "Avf.C77_old_file_violated",
    "Avf.C77_mode_violated"
   ],
   "note": "False for AVCC key packets with codec parameters (C77_claim_violated), for older longer files (C77_old_file_violated), and new files are not readable by their owner (C77_mode_violated). C77_contents says exactly what the files hold in every case, C77_total exactly when the handler gets through; C77_contents_partial is the claim without those cases."
  },
  {
   "property": "C78",
   "status": "proved",
   "theorems": [
    "Avf.C78_delivered_bytes",
    "Avf.C78_direct_claim_violated",
    "Avf.C78_orderly"
   ],
   "note": "C78_delivered_bytes is the full claim for StreamsBuffer under the stated load, C78_orderly the same with announced tracks. C78_direct_claim_violated is the disagreement for DirectDataPipeline that the statement names. The bound on the payloads may differ from buffer to buffer, and no array grows."
  },
  {
   "property": "C79",
   "status": "partial",
   "theorems": [
    "Avf.C79_silent",
    "Avf.C79_probing",
    "Avf.C79_probe_complete",
    "Avf.C79_completed",
    "Avf.C79_open",
    "Avf.C79_history",
    "Avf.C79_reopen",
    "Avf.C79_callback_gone",
    "Avf.C79_discard",
    "Avf.C79_claim_violated",
    "Avf.C79_exact",
    "Avf.C79_exact_track"
   ],
   "note": "The exact behaviour is proved (C79_silent, C79_probing, C79_completed); that packets after Close are harmless is false (C79_claim_violated). C79_completed is for packet input, C79_exact for every history."
  },
  {
   "property": "C80",
   "status": "partial",
   "theorems": [
    "Avf.C80_frames_per_second",
    "Avf.C80_claim_violated"
   ],
   "note": "False (C80_claim_violated); C80_frames_per_second says what the function computes."
  },
  {
   "property": "C81",
   "status": "proved",
   "theorems": [
    "Avf.C81_packet_objects",
    "Avf.C81_transfer",
    "Avf.C81_any_handler_violated"
   ],
   "note": "C81_packet_objects is the full claim for handlers and others that use only what is theirs. C81_any_handler_violated is the case that the statement names."
  },
  {
   "property": "C82",
   "status": "partial",
   "theorems": [
    "Avf.C82_ring_room",
    "Avf.C82_direct_available",
    "Avf.C82_ring_available_violated",
    "Avf.RingBuf.C82_ring_data_empty",
    "Avf.RingBuf.C82_ring_data_violated",
    "Avf.RingBuf.C82_queue_capacity_is_zero",
    "Avf.RingBuf.C82_queue_capacity_violated"
   ],
   "note": "Proved in full for DirectBlockBuffer (C82_direct_available). False of RBBlockBuffer (C82_ring_available_violated; C82_ring_room says how much really fits) and of Queue (C82_queue_capacity_violated; C82_queue_capacity_is_zero says what is reported instead)."
  },
  {
   "property": "C83",
   "status": "partial",
   "theorems": [
    "Avf.RingBuf.C83_popBack_violated",
    "Avf.RingBuf.C83_clear_violated",
    "Avf.RingBuf.C83_queue_partial",
    "Avf.RingBuf.C83_ring_partial",
    "Avf.RingBuf.C83_queue_stale",
    "Avf.RingBuf.C83_ring_stale"
   ],
   "note": "False after PopBack and Clear. The partial theorems cover every history without them and give the exact contents of the array; with them only what they took away can stay (C83_queue_stale, C83_ring_stale)."
  },
  {
   "property": "C84",
   "status": "partial",
   "theorems": [
    "Avf.C84_safeRead_value_violated",
    "Avf.C84_safeRead_never_fails",
    "Avf.C84_safeRead_end_violated"
   ],
   "note": "The function is a stub in the code; the negation is proved, and what it does instead (C84_safeRead_never_fails)."
  },
  {
   "property": "C85",
   "status": "proved",
   "theorems": [
    "Avf.C85_inherit"
   ],
   "note": "A stream without parameter sets inherits those of its codec"
  },
  {
   "property": "C86",
   "status": "partial",
   "theorems": [
    "Avf.C86_read_exact",
    "Avf.C86_read_aligned_partial",
    "Avf.C86_read_rounds_down",
    "Avf.C86_read_negative_panics",
    "Avf.C86_write_exact",
    "Avf.C86_write_aligned_partial",
    "Avf.C86_write_rounds_down",
    "Avf.C86_write_negative_panics",
    "Avf.C86_round_trip",
    "Avf.C86_truncated_panics",
    "Avf.C86_seek",
    "Avf.C86_violated"
   ],
   "note": "Proved on byte boundaries; between them the claim is false. C86_read_exact, C86_write_exact: the effect at every position."
  },
  {
   "property": "C87",
   "status": "proved",
   "theorems": [
    "Avf.C87_same",
    "Avf.C87_accurate",
    "Avf.C87_dts_le_pts",
    "Avf.C87_order",
    "Avf.C87_delta_near",
    "Avf.C87_delta_not_exact"
   ],
   "note": "Time stamps of a packet in another time base"
  },
  {
   "property": "C88",
   "status": "proved",
   "theorems": [
    "Avf.C88_avc",
    "Avf.C88_hevc",
    "Avf.C88_panics_iff",
    "Avf.C88_agrees",
    "Avf.C88_avc_record",
    "Avf.C88_hevc_record"
   ],
   "note": "Streams made from a key frame, codec data made from a record"
  },
  {
   "property": "C89",
   "status": "proved",
   "theorems": [
    "Avf.C89_min_max"
   ],
   "note": "MinInt and MaxInt"
  },
  {
   "property": "C90",
   "status": "proved",
   "theorems": [
    "Avf.C90_video",
    "Avf.C90_audio",
    "Avf.C90_audio_nil",
    "Avf.C90_avc_key_frame",
    "Avf.C90_hevc_key_frame",
    "Avf.C90_extra_data",
    "Avf.C90_streams_keep"
   ],
   "note": "Streams own their memory"
  },
  {
   "property": "C91",
   "status": "partial",
   "theorems": [
    "Avf.C91_read_exact",
    "Avf.C91_read_partial",
    "Avf.C91_m4vc_partial",
    "Avf.C91_to_avcc_partial",
    "Avf.C91_to_annexB_partial",
    "Avf.C91_to_avcc_exact",
    "Avf.C91_claim_violated",
    "Avf.C91_m4vc_violated",
    "Avf.C91_to_avcc_violated"
   ],
   "note": "False where the function panics on an exact slice: there ReadBytes and the packet conversions deliver stale bytes. Proved wherever they do not panic; exact outcome for ReadBytes and AnnexBPacket2AVCC."
  },
  {
   "property": "C92",
   "status": "partial",
   "theorems": [
    "Avf.Golomb.C92_ue_exact",
    "Avf.Golomb.C92_ue_zeros",
    "Avf.Golomb.C92_accepted_partial",
    "Avf.Golomb.C92_rejected_partial",
    "Avf.Golomb.C92_se_partial",
    "Avf.Golomb.C92_claim_violated"
   ],
   "note": "False for 33 zero bits: the marker bit after 32 zeros is not looked at. Proved for every other bit string; C92_ue_exact and C92_ue_zeros give the outcome on every bit string."
  },
  {
   "property": "C93",
   "status": "partial",
   "theorems": [
    "Avf.C93_avc_partial",
    "Avf.C93_avc_unique",
    "Avf.C93_avc_violated",
    "Avf.C93_hevc_partial",
    "Avf.C93_hevc_short",
    "Avf.C93_hevc_violated",
    "Avf.C93_claim_violated"
   ],
   "note": "False: values outside the ranges of the standard, reserved types and (H.264) other profiles are accepted. Proved exactly what is accepted: the form of the syntax, for H.264 with the high-profile part for the eight listed profiles and eight scaling lists, on every NAL unit (no three zero bytes in a row); for H.265 on every payload without 33 zero bits in a row behind profile and level."
  },
  {
   "property": "C94",
   "status": "proved",
   "theorems": [
    "Avf.C94_taken",
    "Avf.C94_files",
    "Avf.C94_files_any"
   ],
   "note": "Under the hypotheses that the component theorems need: no preprocess callback, key frames made of NAL units, a load that fits the rings (LightInput), no older files of the same names. C94_files: DTS increasing in each buffer; C94_files_any: any DTS."
  },
  {
   "property": "C95",
   "status": "proved",
   "theorems": [
    "Avf.C95_lists",
    "Avf.C95_right",
    "Avf.C95_memory",
    "Avf.C95_memory_lists"
   ],
   "note": "C95_lists and C95_right from the bytes; C95_memory justifies the bookkeeping of sharing in the model (ppsCap, shared) against an explicit heap of arrays; C95_memory_lists is the closed form for that heap. Line 192 (append to PPSList instead of SPSList) is the defect behind C44_two_sps_violated."
  },
  {
   "property": "C96",
   "status": "proved",
   "theorems": [
    "Avf.C96_timestamps",
    "Avf.C96_frame_rate",
    "Avf.C96_aac_frame"
   ],
   "note": "The format (significand, exponent range, nearest, ties to even) is specified in Spec/Float.lean and shown to determine the result (FloatFormat.Rounds.unique). The result for a source time base or a tick of 0, or out of the range of int64, is implementation-specific in Go and not claimed."
  },
  {
   "property": "C97",
   "status": "proved",
   "theorems": [
    "Avf.C97_independent",
    "Avf.C97_transfer",
    "Avf.C97_rogue_handler"
   ],
   "note": "Operations of different demuxers are atomic towards each other (one after the other, in any order), and a handler does not call a demuxer; data races between goroutines are outside the model. C97_transfer carries every property of the calls of a demuxer that is alone over to every demuxer of a process."
  },
  {
   "property": "C98",
   "status": "proved",
   "theorems": [
    "Avf.C98_beginning",
    "Avf.C98_demuxer",
    "Avf.C98_flv",
    "Avf.C98_noticed",
    "Avf.C98_operations",
    "Avf.C98_no_fault",
    "Avf.C98_left_behind"
   ],
   "note": "OpenFile that fails is assumed to make no file, Write that fails to have written a beginning of the bytes. What the operating system does with data that it has accepted (power failure, caches) is outside the model."
  },
  {
   "property": "C99",
   "status": "proved",
   "theorems": [
    "Avf.C99_flv_hevc_conserved",
    "Avf.C99_taken",
    "Avf.C99_files",
    "Avf.C99_files_any",
    "Avf.C99_conserved",
    "Avf.C99_flv",
    "Avf.C99_flv_conserved",
    "Avf.C99_flv_hevc",
    "Avf.C99_flv_orderly",
    "Avf.C99_order_lost",
    "Avf.C99_read",
    "Avf.C99_flv_memory",
    "Avf.C99_flv_hevc_memory"
   ],
   "note": "Parameter sets are written twice before key frames: the handler writes them and the conversion adds them again. C99_order_lost shows that orderly is needed: when sound that was announced first only comes after probing, the key frame with DTS 0 is the last in the file. Without orderly: C99_conserved and C99_flv_conserved (every history); with any DTS: C99_files_any."
  },
  {
   "property": "C100",
   "status": "partial",
   "theorems": [
    "Avf.C100_agrees",
    "Avf.C100_packet",
    "Avf.C100_track",
    "Avf.C100_history",
    "Avf.C100_blocks",
    "Avf.C100_order",
    "Avf.C100_claim_violated"
   ],
   "note": "That the block is always discarded is false: nothing is deferred in OnNewAudioTrack and OnNewVideoTrack, so the extra data of an announcement that panics stays in the pipeline (C100_claim_violated). For packets it is true (C100_packet)."
  },
  {
   "property": "C101",
   "status": "partial",
   "theorems": [
    "Avf.C101_once",
    "Avf.C101_release",
    "Avf.C101_leak",
    "Avf.C101_blame",
    "Avf.C101_order",
    "Avf.C101_never_announced",
    "Avf.C101_stuck",
    "Avf.C101_live",
    "Avf.C101_order_violated",
    "Avf.C101_lost_violated",
    "Avf.C101_claim_violated",
    "Avf.C101_callback_violated"
   ],
   "note": "That a recovered panic of the handler costs nothing is false in three ways. Completed is set before the tracks are announced, so after a panic in OnNewTrack packets of tracks are delivered that were never announced, and what had been queued waits for ever (C101_order_violated, C101_never_announced, C101_stuck). The queues are emptied before their packets are delivered, so a panic at one loses the rest (C101_lost_violated). The releases come after the call (C101_release, exact). A panic of the callback comes after ok = true, so the block stays (C101_callback_violated)."
  },
  {
   "property": "C102",
   "status": "partial",
   "theorems": [
    "Avf.C102_replay",
    "Avf.C102_close",
    "Avf.C102_live",
    "Avf.C102_announce",
    "Avf.C102_closed",
    "Avf.C102_claim_violated"
   ],
   "note": "That a handler may close the demuxer in any of its methods is false: in OnNewTrack, and in OnPacket at the end of probing while packets are left, the next call is one of a nil handler (C102_claim_violated); exactly when is C102_close."
  },
  {
   "property": "C103",
   "status": "proved",
   "theorems": [
    "Avf.C103_auto_free",
    "Avf.C103_panics",
    "Avf.C103_reached"
   ],
   "note": "The buffer that AutoFree discards from is found by the index of the track; that it is the buffer of the packet is C101_release."
  },
  {
   "property": "C104",
   "status": "partial",
   "theorems": [
    "Avf.C104_pipe",
    "Avf.RingBuf.C104_queue",
    "Avf.C104_direct",
    "Avf.C104_direct_violated",
    "Avf.C104_ring",
    "Avf.C104_ring_once",
    "Avf.C104_ring_live",
    "Avf.C104_streams"
   ],
   "note": "False for DirectBlockBuffer if only the bytes that are still in it count (C104_direct_violated): its memory is reused only when it is empty, so a buffer that always holds one block grows without limit. The bound in the bytes since it was last empty, C104_direct, is proved; for the ring the bound in the live bytes is proved (C104_ring_live). SplitOff is excluded for the ring."
  },
  {
   "property": "C105",
   "status": "proved",
   "theorems": [
    "Avf.C105_modest",
    "Avf.C105_packet_input",
    "Avf.C105_queued",
    "Avf.C105_payloads_not_enough"
   ],
   "note": "The condition is on the input and on whether probing is over; LightInput of C78 is derived from it (modest_light). Orderly and no two tracks with one buffer as in C78_orderly; packet input is always so (C105_packet_input)."
  },
  {
   "property": "C106",
   "status": "partial",
   "theorems": [
    "Avf.C106_never",
    "Avf.C106_unbounded",
    "Avf.C106_while_probing",
    "Avf.C106_packets",
    "Avf.C106_exact",
    "Avf.C106_not_early",
    "Avf.C106_milliseconds",
    "Avf.C106_memory",
    "Avf.C106_files",
    "Avf.C106_claim_violated"
   ],
   "note": "The equivalence is false (C106_claim_violated). Proved: when exactly (C106_exact), in full for FLV and JT1078 (C106_milliseconds), never earlier and how much later at most (C106_not_early), how many packets probing keeps (C106_while_probing, C106_packets); from this memory and files with conditions on the input only (C106_memory, C106_files). Packets less than 1 ms apart: C106_never, C106_unbounded."
  },
  {
   "property": "C107",
   "status": "partial",
   "theorems": [
    "Avf.C107_avc",
    "Avf.C107_avc_relayed",
    "Avf.C107_units_unique",
    "Avf.C107_hevc",
    "Avf.C107_hevc_relayed",
    "Avf.C107_avc_same_iff",
    "Avf.C107_differs",
    "Avf.C107_sei_violated",
    "Avf.C107_sets_violated"
   ],
   "note": "The claim is false (C107_sei_violated, C107_sets_violated). Proved instead: exactly what comes back (C107_avc, C107_hevc), after any number of receivers (C107_avc_relayed, C107_hevc_relayed), and exactly when it is what was sent (C107_avc_same_iff)."
  },
  {
   "property": "C108",
   "status": "partial",
   "theorems": [
    "Avf.C108_decodes",
    "Avf.C108_claim_violated"
   ],
   "note": "The file and its pictures: C108_decodes; the sets in force under the condition that the sets of the stream do not change; C108_claim_violated without it."
  },
  {
   "property": "C109",
   "status": "partial",
   "theorems": [
    "Avf.C109_cut",
    "Avf.C109_unique",
    "Avf.C109_written",
    "Avf.C109_adts",
    "Avf.C109_claim_violated"
   ],
   "note": "Reading and writing: C109_cut, C109_unique, C109_written; PS, TS and JT1078: C109_adts; FLV: C109_claim_violated (no reader whatsoever can do it)."
  },
  {
   "property": "C110",
   "status": "partial",
   "theorems": [
    "Avf.C110_get_erased",
    "Avf.C110_remove_erased",
    "Avf.C110_lookup",
    "Avf.C110_exact",
    "Avf.C110_process",
    "Avf.C110_completed",
    "Avf.C110_paced",
    "Avf.C110_total",
    "Avf.C110_still",
    "Avf.C110_claim_violated"
   ],
   "note": "Exact costs: C110_lookup, C110_exact, C110_process, C110_total; bounds: C110_completed, C110_paced; counterexample: C110_still, C110_claim_violated. Only next pointers that are followed are counted (not sorting, copying or map lookups)."
  },
  {
   "property": "C111",
   "status": "partial",
   "theorems": [
    "Avf.C111_ends",
    "Avf.C111_disorder",
    "Avf.C111_jitter",
    "Avf.C111_track",
    "Avf.C111_claim_violated"
   ],
   "note": "C111_ends, C111_disorder, C111_jitter, C111_track; counterexample for DTS order over all tracks: C111_claim_violated."
  },
  {
   "property": "C112",
   "status": "partial",
   "theorems": [
    "Avf.C112_access",
    "Avf.C112_flv",
    "Avf.C112_flv_hevc",
    "Avf.C112_claim_violated",
    "Avf.C112_flv_hevc_violated"
   ],
   "note": "C112_access (exact condition), C112_flv, C112_flv_hevc; counterexamples: C112_claim_violated, C112_flv_hevc_violated."
  },
  {
   "property": "C113",
   "status": "partial",
   "theorems": [
    "Avf.C113_same",
    "Avf.C113_tracks",
    "Avf.C113_equal",
    "Avf.C113_packets",
    "Avf.C113_claim_violated",
    "Avf.C113_shared_violated"
   ],
   "note": "C113_same, C113_tracks, C113_equal, C113_packets; counterexamples: C113_claim_violated, C113_shared_violated."
  },
  {
   "property": "C114",
   "status": "proved",
   "theorems": [
    "Avf.C114_find",
    "Avf.C114_key_frame",
    "Avf.C114_split",
    "Avf.C114_to_avcc",
    "Avf.C114_avc_sps",
    "Avf.C114_hevc_sps",
    "Avf.C114_parse_nal_units",
    "Avf.C114_find_floor",
    "Avf.C114_key_frame_floor",
    "Avf.C114_split_floor",
    "Avf.C114_to_avcc_floor",
    "Avf.C114_avc_sps_floor",
    "Avf.C114_hevc_sps_floor",
    "Avf.C114_reads"
   ],
   "note": "C114_find, C114_key_frame, C114_split, C114_to_avcc, C114_avc_sps, C114_hevc_sps, C114_parse_nal_units; from below C114_find_floor, C114_key_frame_floor, C114_split_floor, C114_to_avcc_floor, C114_avc_sps_floor, C114_hevc_sps_floor; C114_reads."
  },
  {
   "property": "C115",
   "status": "partial",
   "theorems": [
    "Avf.C115_ticks_wrapped",
    "Avf.C115_ticks",
    "Avf.C115_milliseconds",
    "Avf.C115_drift_bound",
    "Avf.C115_exact_flv",
    "Avf.C115_drift",
    "Avf.C115_claim_violated"
   ],
   "note": "Ticks: C115_ticks_wrapped, C115_ticks. Milliseconds: C115_milliseconds, C115_drift_bound, C115_exact_flv; counterexamples C115_drift (without bound), C115_claim_violated."
  },
  {
   "property": "C116",
   "status": "partial",
   "theorems": [
    "Avf.C116_pcm",
    "Avf.C116_g726",
    "Avf.C116_right",
    "Avf.C116_whole_milliseconds",
    "Avf.C116_g726_right",
    "Avf.C116_claim_violated",
    "Avf.C116_second_track",
    "Avf.C116_stereo"
   ],
   "note": "Which rate: C116_pcm, C116_g726. When it is right: C116_right, C116_whole_milliseconds, C116_g726_right. Counterexamples: C116_claim_violated, C116_second_track, C116_stereo."
  },
  {
   "property": "C117",
   "status": "proved",
   "theorems": [
    "Avf.C117_none_lost",
    "Avf.C117_peak",
    "Avf.C117_settled",
    "Avf.C117_constant",
    "Avf.C117_wasteful",
    "Avf.C117_collected",
    "Avf.C117_rogue_handler"
   ],
   "note": "None lost: C117_none_lost. How many: C117_peak, C117_settled, C117_constant (with an example where the bound is met). Why the hypotheses: C117_wasteful (the pool makes packets although it has some), C117_collected (garbage collection), C117_rogue_handler."
  },
  {
   "property": "C118",
   "status": "partial",
   "theorems": [
    "Avf.C118_hevc",
    "Avf.C118_avc",
    "Avf.C118_avc_accepts_partial",
    "Avf.C118_stale_accepted",
    "Avf.C118_stale_pps",
    "Avf.C118_claim_violated"
   ],
   "note": "Exact: C118_hevc, C118_avc. The part of the claim that holds: C118_avc_accepts_partial. Counterexamples: C118_stale_accepted, C118_stale_pps, C118_claim_violated. All calls in the repository are on new variables."
  },
  {
   "property": "C119",
   "status": "proved",
   "theorems": [
    "Avf.C119_avcc",
    "Avf.C119_hevc",
    "Avf.C119_annexb",
    "Avf.C119_packet_annexb",
    "Avf.C119_packet_avcc",
    "Avf.C119_kept",
    "Avf.C119_own",
    "Avf.C119_overlap"
   ],
   "note": "The conversions are modelled once more on one memory with slices as references (Model/PacketMemory) and proved to refine Model/Nal and Model/Packet. C119_overlap: with a buffer that overlaps the payload the result is wrong, so the condition on OnBufferAlloc is needed."
  },
  {
   "property": "C120",
   "status": "partial",
   "theorems": [
    "Avf.C120_exact",
    "Avf.C120_unique",
    "Avf.C120_h265_partial",
    "Avf.C120_record",
    "Avf.C120_claim_violated"
   ],
   "note": "The last sentence is false (C120_claim_violated): the buffer is 256 bytes longer than the payload, and each length of k bytes becomes a start code of 4 bytes, so 86 units with one-byte lengths panic. C120_h265_partial, C120_record: a well-formed packet is converted if and only if (4-k) * units <= 256. C120_exact, C120_unique: the rest of the statement, for all packets."
  },
  {
   "property": "C121",
   "status": "proved",
   "theorems": [
    "Avf.Threads.C121_race_free",
    "Avf.Threads.C121_same",
    "Avf.Threads.C121_apart",
    "Avf.Threads.C121_returned",
    "Avf.Threads.C121_finishes",
    "Avf.Threads.C121_transfer"
   ],
   "note": "C121_race_free, C121_same, C121_apart, C121_returned, C121_finishes; C121_transfer carries the claims about calls (C61-C67 and others) over to goroutines. Handlers may make packets, write to and free their own, write to the one they are lent but for its stream index, and pass their own on to any goroutine (one bag of packets on their way, which allows for any number of channels)."
  },
  {
   "property": "C122",
   "status": "partial",
   "theorems": [
    "Avf.C122_exact",
    "Avf.C122_total",
    "Avf.C122_pieces",
    "Avf.C122_complete_iff",
    "Avf.C122_enough",
    "Avf.C122_glued",
    "Avf.C122_claim_violated"
   ],
   "note": "Exact: C122_exact, C122_total, C122_pieces, C122_complete_iff, C122_enough. The last sentence is false (C122_claim_violated): a unit whose start code does not fit becomes the end of the unit before (C122_glued)."
  },
  {
   "property": "C123",
   "status": "partial",
   "theorems": [
    "Avf.C123_avcc",
    "Avf.C123_hevc",
    "Avf.C123_avcc_count",
    "Avf.C123_hevc_count",
    "Avf.C123_cut_iff",
    "Avf.C123_cut",
    "Avf.C123_claim_violated"
   ],
   "note": "Exact: C123_avcc, C123_hevc, C123_avcc_count, C123_hevc_count, C123_cut_iff. The last sentence is false (C123_claim_violated): the last unit is cut without a panic and the count is larger than the destination."
  },
  {
   "property": "C124",
   "status": "partial",
   "theorems": [
    "Avf.C124_avc",
    "Avf.C124_hevc",
    "Avf.C124_avc_safe",
    "Avf.C124_hevc_safe",
    "Avf.C124_avc_size",
    "Avf.C124_hevc_size",
    "Avf.C124_claim_violated",
    "Avf.C124_order",
    "Avf.C124_avc_back",
    "Avf.C124_hevc_back",
    "Avf.C124_avc_codec",
    "Avf.C124_hevc_codec"
   ],
   "note": "Exact: C124_avc, C124_hevc; safe cases: C124_avc_safe, C124_hevc_safe; C124_avc_size, C124_hevc_size, C124_order; reading back: C124_avc_back, C124_hevc_back. The last sentence is false (C124_claim_violated)."
  },
  {
   "property": "C125",
   "status": "partial",
   "theorems": [
    "Avf.C125_durations",
    "Avf.C125_modulo",
    "Avf.C125_sum",
    "Avf.C125_order",
    "Avf.C125_early",
    "Avf.C125_goes_on",
    "Avf.C125_long_probe",
    "Avf.C125_probing",
    "Avf.C125_restart",
    "Avf.C125_claim_violated"
   ],
   "note": "C125_durations, C125_modulo, C125_sum, C125_order, C125_early, C125_goes_on, C125_long_probe. The last sentence is false (C125_claim_violated, C125_probing, C125_restart)."
  },
  {
   "property": "C126",
   "status": "partial",
   "theorems": [
    "Avf.GolombIO.C126_start",
    "Avf.GolombIO.C126_bit",
    "Avf.GolombIO.C126_ahead",
    "Avf.GolombIO.C126_same",
    "Avf.GolombIO.C126_fields",
    "Avf.GolombIO.C126_ue",
    "Avf.GolombIO.C126_ue_cut",
    "Avf.GolombIO.C126_plain",
    "Avf.GolombIO.C126_claim_violated",
    "Avf.GolombIO.C126_last_byte_lost",
    "Avf.GolombIO.C126_byte_repeated",
    "Avf.GolombIO.C126_no_retry"
   ],
   "note": "C126_start, C126_bit, C126_ahead, C126_same, C126_fields, C126_ue, C126_ue_cut, C126_plain. The last sentence is false (C126_claim_violated, C126_last_byte_lost, C126_byte_repeated); C126_no_retry shows what an error in a field costs. The callers in /repo use bytes.Reader."
  },
  {
   "property": "C127",
   "status": "proved",
   "theorems": [
    "Avf.C127_write",
    "Avf.C127_read",
    "Avf.C127_slices",
    "Avf.C127_moves",
    "Avf.C127_step",
    "Avf.C127_history",
    "Avf.C127_unseen",
    "Avf.C127_seen",
    "Avf.C127_inside",
    "Avf.C127_append",
    "Avf.C127_disjoint",
    "Avf.C127_overwritten"
   ],
   "note": "C127_write, C127_read, C127_slices, C127_moves (each call, exactly, with its errors and the one panic), C127_step, C127_history, C127_unseen, C127_seen, C127_inside, C127_disjoint, C127_append; C127_overwritten shows an append that changes what is read next. The callers in /repo append nothing to such slices."
  },
  {
   "property": "C128",
   "status": "proved",
   "theorems": [
    "Avf.C128_in_step",
    "Avf.C128_written",
    "Avf.C128_from_start",
    "Avf.C128_at_end",
    "Avf.C128_avc_sps",
    "Avf.C128_hevc_sps",
    "Avf.C128_spelled",
    "Avf.C128_everywhere"
   ],
   "note": "C128_in_step, C128_written, C128_from_start, C128_avc_sps, C128_hevc_sps, C128_spelled; C128_at_end shows the readers part at the end of the data. /repo has no function that writes Exp-Golomb codes; the two Write calls are the caller's. se(v) is not among the items because of C13."
  }
 ]
}