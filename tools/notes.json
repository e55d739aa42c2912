{
 "C10": {
  "note": "False for negative sizes (witness C10_readBytes_violated); the partial theorem says exactly which negative sizes panic."
 },
 "C13": {
  "note": "False for negative values (witness); proved: exact for v >= 0, result 2^63+v for v < 0, code word consumed exactly."
 },
 "C21": {
  "note": "The handover clause is false (witness): the new buffer panics on its first Alloc exactly in the cases of C21_new_buffer_panics_iff. Proved: sealing of the old buffer, and the contract for a SplitOff before anything was written. For the ring, C21_ring_split_off says exactly what happens: all of the memory is handed over as free, whatever it holds."
 },
 "C23": {
  "note": "False (two witnesses). The two events do harm whenever they happen: C23_full_overwrites, C23_second_growth_loses_count. Proved for every history avoiding exactly the two events, and, from the caller's side only, for every history that leaves room for two blocks."
 },
 "C48": {
  "note": "Proved for all syntactically valid sets except profiles 128/134/135/138/139 and 4:4:4 scaling matrices, for which the statement is false (C48_claim_violated, C48_scaling444_violated). C48_standard_size says exactly when the size is the standard's; C48_standard_size_violated is the interlaced counterexample."
 },
 "C50": {
  "note": "False as stated (C50_claim_violated: 25 fps becomes 699050 fps). C50_partial: equal when the parsed part needs no emulation prevention. C50_size: when the part before the VUI needs none and the escaped unit is accepted, everything but the frame rate is right; C50_timing: when only the timing fields need it, the unit is accepted and only the frame rate differs. C50_exact: exactly what is read from an escaped unit, and exactly when it is the same as for the unescaped one."
 },
 "C55": {
  "note": "False (C55_claim_violated): GetSampleRateIndex uses the rate as a key. Proved: what it returns outside 0..15, and that GetSampleRateFromFrequency is the table of the standard."
 },
 "C57": {
  "note": "The first version of the error bound was false and is kept as C57_claim_first_version with its refutation; the statement now bounds the result.",
  "status": "proved"
 },
 "C36": {
  "note": "False as stated (C36_claim_violated: 257 units with short start codes). C36_exact and C36_panics_iff say exactly when it succeeds, for every payload; C36_total_partial covers every payload with at most 256 NAL headers, also with a buffer of the caller."
 },
 "C68": {
  "note": "The stated clauses hold. C68_claim_violated, C68_no_parameters and C68_h265_new_violated are the panics found on the way: no codec parameters, and H.265 AVCC packets with codec data made by NewHEVCCodecData (length size 0).",
  "status": "proved"
 },
 "C62": {
  "note": "False if a track's first packet comes before that of a track with a smaller index (C62_claim_violated): the queues get mixed and packets are withheld. Proved for all histories: nothing is lost, duplicated or altered (C62_conserved), what is taken is the input (C62_audio_input, C62_video_input). Proved when first packets come in index order, which holds for every history without explicit track events (C62_packet_input): exact per-track contents and durations. What happens for every history is C62_exact_probing and C62_exact: the same with lanes in place of tracks, and lanes are tracks exactly if first packets come in index order (C62_lanes_are_tracks)."
 },
 "C65": {
  "note": "The duration clause is false when queues are mixed (C65_claim_violated); proved for every history without explicit track events (C65_packet_input). Once-only completion holds for all histories. Exactly when a packet ends probing, for all histories: C65_exact. The time to probe is what SetProbeDuration was last called with (C65_setting), so that is stated in terms of the calls alone (C65_exact_calls)."
 },
 "C66": {
  "note": "Proved for packet input. C66_any_input_false shows that the restriction is needed: two OnNew*Track calls for one buffer make the lookup depend on map order.",
  "status": "proved"
 },
 "C67": {
  "note": "G.726 clause and the PCM clause up to 96 bytes per ms are proved; above it the code stores the sample size as sample rate (C67_claim_violated), for every packet (C67_pcm_above)."
 },
 "C64": {
  "note": "False for decreasing DTS (C64_claim_violated): the block discarded after a delivery is the oldest of the buffer, not the packet's own. Proved for all histories: no underflow, counts, one discard and one free per delivery (C64_blocks, C64_count, C64_freed, C64_manual); exact contents for packet input (C64_queued_blocks) and for orderly histories with announced tracks (C64_queued_orderly), with strictly increasing DTS also the own block (C64_own_block_partial, C64_own_orderly_partial). Orderly is needed: C64_orderly_needed."
 },
 "C34": {
  "note": "C34_exact gives the outcome for every byte string and destination (units as seen by the code, AnnexUnits; unique); clean units come back exactly (C34_annexB_to_avcc_partial). The comment in the code also promises that empty units are skipped, which is false (C34_empty_unit_violated)."
 },
 "C38": {
  "note": "False twice (C38_two_sps_violated, C38_truncated_violated). C38_exact gives the outcome on every byte string (result, error or panic) by a specification on lists; C38_panics_iff says exactly which records panic, C38_many_sps what happens with several SPS; records with one SPS: exact result below 131 PPS, an error from there on."
 },
 "C39": {
  "note": "Holds as stated. C39_empty_unit_violated shows that the restriction to non-empty units is needed: an empty one panics. C39_exact, C39_panics_iff: the outcome for every payload, well framed or not.",
  "status": "proved"
 },
 "C41": {
  "note": "Holds as stated. C41_32_sps_violated shows that the limit of 31 SPS is needed; above 1024 bytes and without SPS or PPS there is an error (C41_too_big, C41_missing).",
  "status": "proved"
 },
 "C44": {
  "note": "False for two or more SPS (C44_two_sps_violated); C44_last_sps_partial says exactly what comes back: only the last SPS."
 },
 "C45": {
  "note": "Holds as stated. C45_pps_among_sps_violated is a disagreement found on the way: a PPS array before the SPS array puts PPS into the SPS list.",
  "status": "proved"
 },
 "C72": {
  "note": "False for key frames that are not well framed (C72_claim_violated, C72_bad_frames). Proved for all histories whose key frames are well framed (C72_sound_partial), for FLV (C72_flv) and without H.264/H.265 key frames (C72_no_key_frames). C72_exact, C72_step, C72_packets_exact: exactly which histories panic, for any operations."
 },
 "C73": {
  "note": "C73_source assumes well framed key frames (otherwise the demuxer may panic, C72). The third case of CameFrom, a video packet said to be AAC, gets the configuration of an AAC track."
 },
 "C74": {
  "note": "False for announced tracks without packets (C74_claim_violated). Full claim proved for packet input (C74_packet_input); exact behaviour when first packets come in index order (C74_one_packet_partial). Exact behaviour for all histories: C74_exact."
 },
 "C75": {
  "note": "The contract of the calls holds (C75_audio, C75_video, C75_lookup). At most one track per type is false for packets on several buffers (C75_claim_violated); proved when each type has one buffer (C75_one_per_type_partial). For every history: tracks of one type are on different buffers, all but the first of a type come from packets (C75_places), and there are at most as many as the type has buffers (C75_count)."
 },
 "C77": {
  "note": "False for AVCC key packets with codec parameters (C77_claim_violated), for older longer files (C77_old_file_violated), and new files are not readable by their owner (C77_mode_violated). C77_contents says exactly what the files hold in every case, C77_total exactly when the handler gets through; C77_contents_partial is the claim without those cases."
 },
 "C78": {
  "status": "proved",
  "note": "C78_delivered_bytes is the full claim for StreamsBuffer under the stated load, C78_orderly the same with announced tracks. C78_direct_claim_violated is the disagreement for DirectDataPipeline that the statement names. The bound on the payloads may differ from buffer to buffer, and no array grows."
 },
 "C79": {
  "note": "The exact behaviour is proved (C79_silent, C79_probing, C79_completed); that packets after Close are harmless is false (C79_claim_violated). C79_completed is for packet input, C79_exact for every history."
 },
 "C80": {
  "note": "False (C80_claim_violated); C80_frames_per_second says what the function computes."
 },
 "C81": {
  "status": "proved",
  "note": "C81_packet_objects is the full claim for handlers and others that use only what is theirs. C81_any_handler_violated is the case that the statement names."
 },
 "C82": {
  "status": "partial",
  "note": "Proved in full for DirectBlockBuffer (C82_direct_available). False of RBBlockBuffer (C82_ring_available_violated; C82_ring_room says how much really fits) and of Queue (C82_queue_capacity_violated; C82_queue_capacity_is_zero says what is reported instead)."
 },
 "C83": {
  "status": "partial",
  "note": "False after PopBack and Clear. The partial theorems cover every history without them and give the exact contents of the array; with them only what they took away can stay (C83_queue_stale, C83_ring_stale)."
 },
 "C84": {
  "status": "partial",
  "note": "The function is a stub in the code; the negation is proved, and what it does instead (C84_safeRead_never_fails)."
 },
 "C30": {
  "note": "C30_exact: the pieces of every string, well framed or not; pieces_existsUnique: they exist and are unique."
 },
 "C40": {
  "note": "C40_exact, C40_panics_iff: the outcome for every payload, well framed or not."
 },
 "C86": {
  "note": "Proved on byte boundaries; between them the claim is false. C86_read_exact, C86_write_exact: the effect at every position."
 },
 "C91": {
  "note": "False where the function panics on an exact slice: there ReadBytes and the packet conversions deliver stale bytes. Proved wherever they do not panic; exact outcome for ReadBytes and AnnexBPacket2AVCC."
 },
 "C92": {
  "note": "False for 33 zero bits: the marker bit after 32 zeros is not looked at. Proved for every other bit string; C92_ue_exact and C92_ue_zeros give the outcome on every bit string."
 },
 "C93": {
  "note": "False: values outside the ranges of the standard, reserved types and (H.264) other profiles are accepted. Proved exactly what is accepted: the form of the syntax, for H.264 with the high-profile part for the eight listed profiles and eight scaling lists, on every NAL unit (no three zero bytes in a row); for H.265 on every payload without 33 zero bits in a row behind profile and level."
 },
 "C94": {
  "note": "Under the hypotheses that the component theorems need: no preprocess callback, key frames made of NAL units, a load that fits the rings (LightInput), no older files of the same names. C94_files: DTS increasing in each buffer; C94_files_any: any DTS."
 },
 "C95": {
  "note": "C95_lists and C95_right from the bytes; C95_memory justifies the bookkeeping of sharing in the model (ppsCap, shared) against an explicit heap of arrays; C95_memory_lists is the closed form for that heap. Line 192 (append to PPSList instead of SPSList) is the defect behind C44_two_sps_violated."
 },
 "C96": {
  "note": "The format (significand, exponent range, nearest, ties to even) is specified in Spec/Float.lean and shown to determine the result (FloatFormat.Rounds.unique). The result for a source time base or a tick of 0, or out of the range of int64, is implementation-specific in Go and not claimed."
 },
 "C97": {
  "note": "Operations of different demuxers are atomic towards each other (one after the other, in any order), and a handler does not call a demuxer; data races between goroutines are outside the model. C97_transfer carries every property of the calls of a demuxer that is alone over to every demuxer of a process."
 },
 "C98": {
  "note": "OpenFile that fails is assumed to make no file, Write that fails to have written a beginning of the bytes. What the operating system does with data that it has accepted (power failure, caches) is outside the model."
 },
 "C99": {
  "note": "Parameter sets are written twice before key frames: the handler writes them and the conversion adds them again. C99_order_lost shows that orderly is needed: when sound that was announced first only comes after probing, the key frame with DTS 0 is the last in the file. Without orderly: C99_conserved and C99_flv_conserved (every history); with any DTS: C99_files_any."
 },
 "C100": {
  "note": "That the block is always discarded is false: nothing is deferred in OnNewAudioTrack and OnNewVideoTrack, so the extra data of an announcement that panics stays in the pipeline (C100_claim_violated). For packets it is true (C100_packet).",
  "status": "partial"
 },
 "C101": {
  "note": "That a recovered panic of the handler costs nothing is false in three ways. Completed is set before the tracks are announced, so after a panic in OnNewTrack packets of tracks are delivered that were never announced, and what had been queued waits for ever (C101_order_violated, C101_never_announced, C101_stuck). The queues are emptied before their packets are delivered, so a panic at one loses the rest (C101_lost_violated). The releases come after the call (C101_release, exact). A panic of the callback comes after ok = true, so the block stays (C101_callback_violated).",
  "status": "partial"
 },
 "C102": {
  "note": "That a handler may close the demuxer in any of its methods is false: in OnNewTrack, and in OnPacket at the end of probing while packets are left, the next call is one of a nil handler (C102_claim_violated); exactly when is C102_close.",
  "status": "partial"
 },
 "C103": {
  "note": "The buffer that AutoFree discards from is found by the index of the track; that it is the buffer of the packet is C101_release."
 },
 "C104": {
  "note": "False for DirectBlockBuffer if only the bytes that are still in it count (C104_direct_violated): its memory is reused only when it is empty, so a buffer that always holds one block grows without limit. The bound in the bytes since it was last empty, C104_direct, is proved; for the ring the bound in the live bytes is proved (C104_ring_live). SplitOff is excluded for the ring."
 },
 "C105": {
  "note": "The condition is on the input and on whether probing is over; LightInput of C78 is derived from it (modest_light). Orderly and no two tracks with one buffer as in C78_orderly; packet input is always so (C105_packet_input)."
 },
 "C106": {
  "note": "The equivalence is false (C106_claim_violated). Proved: when exactly (C106_exact), in full for FLV and JT1078 (C106_milliseconds), never earlier and how much later at most (C106_not_early), how many packets probing keeps (C106_while_probing, C106_packets); from this memory and files with conditions on the input only (C106_memory, C106_files). Packets less than 1 ms apart: C106_never, C106_unbounded."
 },
 "C107": {
  "note": "The claim is false (C107_sei_violated, C107_sets_violated). Proved instead: exactly what comes back (C107_avc, C107_hevc), after any number of receivers (C107_avc_relayed, C107_hevc_relayed), and exactly when it is what was sent (C107_avc_same_iff)."
 },
 "C108": {
  "note": "The file and its pictures: C108_decodes; the sets in force under the condition that the sets of the stream do not change; C108_claim_violated without it.",
  "status": "partial"
 },
 "C109": {
  "note": "Reading and writing: C109_cut, C109_unique, C109_written; PS, TS and JT1078: C109_adts; FLV: C109_claim_violated (no reader whatsoever can do it).",
  "status": "partial"
 },
 "C110": {
  "note": "Exact costs: C110_lookup, C110_exact, C110_process, C110_total; bounds: C110_completed, C110_paced; counterexample: C110_still, C110_claim_violated. Only next pointers that are followed are counted (not sorting, copying or map lookups).",
  "status": "partial"
 },
 "C111": {
  "note": "C111_ends, C111_disorder, C111_jitter, C111_track; counterexample for DTS order over all tracks: C111_claim_violated.",
  "status": "partial"
 },
 "C112": {
  "note": "C112_access (exact condition), C112_flv, C112_flv_hevc; counterexamples: C112_claim_violated, C112_flv_hevc_violated.",
  "status": "partial"
 },
 "C113": {
  "note": "C113_same, C113_tracks, C113_equal, C113_packets; counterexamples: C113_claim_violated, C113_shared_violated.",
  "status": "partial"
 },
 "C114": {
  "note": "C114_find, C114_key_frame, C114_split, C114_to_avcc, C114_avc_sps, C114_hevc_sps, C114_parse_nal_units; from below C114_find_floor, C114_key_frame_floor, C114_split_floor, C114_to_avcc_floor, C114_avc_sps_floor, C114_hevc_sps_floor; C114_reads.",
  "status": "proved"
 },
 "C115": {
  "note": "Ticks: C115_ticks_wrapped, C115_ticks. Milliseconds: C115_milliseconds, C115_drift_bound, C115_exact_flv; counterexamples C115_drift (without bound), C115_claim_violated."
 },
 "C116": {
  "note": "Which rate: C116_pcm, C116_g726. When it is right: C116_right, C116_whole_milliseconds, C116_g726_right. Counterexamples: C116_claim_violated, C116_second_track, C116_stereo."
 },
 "C117": {
  "note": "None lost: C117_none_lost. How many: C117_peak, C117_settled, C117_constant (with an example where the bound is met). Why the hypotheses: C117_wasteful (the pool makes packets although it has some), C117_collected (garbage collection), C117_rogue_handler.",
  "status": "proved"
 },
 "C118": {
  "note": "Exact: C118_hevc, C118_avc. The part of the claim that holds: C118_avc_accepts_partial. Counterexamples: C118_stale_accepted, C118_stale_pps, C118_claim_violated. All calls in the repository are on new variables."
 },
 "C119": {
  "note": "The conversions are modelled once more on one memory with slices as references (Model/PacketMemory) and proved to refine Model/Nal and Model/Packet. C119_overlap: with a buffer that overlaps the payload the result is wrong, so the condition on OnBufferAlloc is needed."
 },
 "C120": {
  "note": "The last sentence is false (C120_claim_violated): the buffer is 256 bytes longer than the payload, and each length of k bytes becomes a start code of 4 bytes, so 86 units with one-byte lengths panic. C120_h265_partial, C120_record: a well-formed packet is converted if and only if (4-k) * units <= 256. C120_exact, C120_unique: the rest of the statement, for all packets."
 },
 "C121": {
  "note": "C121_race_free, C121_same, C121_apart, C121_returned, C121_finishes; C121_transfer carries the claims about calls (C61-C67 and others) over to goroutines. Handlers may make packets, write to and free their own, write to the one they are lent but for its stream index, and pass their own on to any goroutine (one bag of packets on their way, which allows for any number of channels)."
 },
 "C122": {
  "note": "Exact: C122_exact, C122_total, C122_pieces, C122_complete_iff, C122_enough. The last sentence is false (C122_claim_violated): a unit whose start code does not fit becomes the end of the unit before (C122_glued)."
 },
 "C123": {
  "note": "Exact: C123_avcc, C123_hevc, C123_avcc_count, C123_hevc_count, C123_cut_iff. The last sentence is false (C123_claim_violated): the last unit is cut without a panic and the count is larger than the destination."
 },
 "C124": {
  "note": "Exact: C124_avc, C124_hevc; safe cases: C124_avc_safe, C124_hevc_safe; C124_avc_size, C124_hevc_size, C124_order; reading back: C124_avc_back, C124_hevc_back. The last sentence is false (C124_claim_violated)."
 },
 "C125": {
  "note": "C125_durations, C125_modulo, C125_sum, C125_order, C125_early, C125_goes_on, C125_long_probe. The last sentence is false (C125_claim_violated, C125_probing, C125_restart)."
 },
 "C126": {
  "note": "C126_start, C126_bit, C126_ahead, C126_same, C126_fields, C126_ue, C126_ue_cut, C126_plain. The last sentence is false (C126_claim_violated, C126_last_byte_lost, C126_byte_repeated); C126_no_retry shows what an error in a field costs. The callers in /repo use bytes.Reader."
 },
 "C127": {
  "note": "C127_write, C127_read, C127_slices, C127_moves (each call, exactly, with its errors and the one panic), C127_step, C127_history, C127_unseen, C127_seen, C127_inside, C127_disjoint, C127_append; C127_overwritten shows an append that changes what is read next. The callers in /repo append nothing to such slices."
 },
 "C128": {
  "note": "C128_in_step, C128_written, C128_from_start, C128_avc_sps, C128_hevc_sps, C128_spelled; C128_at_end shows the readers part at the end of the data. /repo has no function that writes Exp-Golomb codes; the two Write calls are the caller's. se(v) is not among the items because of C13."
 }
}