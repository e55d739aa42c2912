# Axioms per theorem

Generated by `tools/axioms.py` from `#print axioms` on every theorem named in `MANIFEST.json`.

## no axioms (5 theorems)

`BytesBuf.C10_readBytes_violated`, `RingBuf.C15_capacity_zero`, `RefCounter.C18_new`, `RingBuf.C82_ring_data_empty`, `C84_safeRead_never_fails`

## propext (22 theorems)

`BytesBuf.C05_clear_reset`, `LList.C17_negative_index_stale`, `LList.C17_negative_index_corrupts`, `C21_split_off_violated`, `C21_ring_split_off_violated`, `C25_fetched_slice_overwritten`, `C55_claim_violated`, `C56_string_negative`, `C58_double_free`, `C68_h265_fits`, `C68_annexB_default`, `C82_ring_available_violated`, `RingBuf.C82_ring_data_violated`, `RingBuf.C82_queue_capacity_violated`, `RingBuf.C83_popBack_violated`, `RingBuf.C83_clear_violated`, `C84_safeRead_end_violated`, `C122_pieces`, `GolombIO.C126_ahead`, `GolombIO.C126_claim_violated`, `GolombIO.C126_byte_repeated`, `C128_spelled`

## Quot.sound, propext (89 theorems)

`C04_readBits_negative_width`, `C04_readBits_negative_start_panics`, `C04_readBits_before`, `Golomb.C11_readBit`, `Golomb.C11_start`, `Golomb.C13_se_violated`, `RingBuf.C15_spec_bounded`, `C21_old_buffer_is_sealed`, `C23_fetched_blocks_immutable_violated`, `C24_streams_independent`, `C24_fetched_slices_independent`, `C24_index_gap_panics`, `C25_seek_past_end_panics`, `C28_headers`, `C30_short_panics`, `C31_remove_start_code`, `C31_panic_iff`, `C33_not_inserted`, `C33_inserted`, `C36_growth`, `C38_two_sps_violated`, `C38_truncated_violated`, `C39_empty_unit_violated`, `C41_missing`, `C41_32_sps_violated`, `C45_pps_among_sps_violated`, `C47_unescape`, `C47_escape_injective`, `C52_panic_iff`, `C54_escapes_ignored`, `C55_index_of_rate_partial`, `C56_range`, `C56_panic`, `C56_string`, `C59_add_track`, `C59_refused`, `C59_one_per_type`, `C59_completed`, `C59_find`, `C59_find_type`, `C68_annexB_not_key`, `C68_repeat`, `C68_not_video`, `C69_hevc_new`, `C69_hevc_new_vps`, `C69_hevc_new_iff`, `C69_hevc_mp4`, `C69_hevc_empty_vps_panics`, `C71_not_record`, `RingBuf.C82_queue_capacity_is_zero`, `C84_safeRead_value_violated`, `C86_read_negative_panics`, `C86_write_rounds_down`, `C86_write_negative_panics`, `C90_audio`, `C90_audio_nil`, `C91_read_partial`, `C91_to_annexB_partial`, `C91_m4vc_violated`, `Golomb.C92_ue_zeros`, `Golomb.C92_claim_violated`, `C93_hevc_violated`, `C95_right`, `C95_memory`, `C98_noticed`, `C98_operations`, `C98_no_fault`, `C101_leak`, `C107_avc_same_iff`, `C110_get_erased`, `C110_remove_erased`, `C114_find`, `C114_find_floor`, `C118_stale_accepted`, `C118_stale_pps`, `C118_claim_violated`, `C122_glued`, `C122_claim_violated`, `C123_cut`, `C123_claim_violated`, `GolombIO.C126_start`, `GolombIO.C126_bit`, `GolombIO.C126_same`, `GolombIO.C126_plain`, `GolombIO.C126_last_byte_lost`, `GolombIO.C126_no_retry`, `C127_inside`, `C127_overwritten`, `C128_at_end`

## Classical.choice, Quot.sound, propext (547 theorems)

`C01_write_read`, `C02_writeBits_frame`, `C02_writeBits_before`, `C02_panics_iff`, `C03_fields_roundtrip`, `C04_readBits`, `C04_readBits_value`, `C04_panics_iff`, `BytesBuf.C05_cursor_in_range`, `BytesBuf.C05_views`, `BytesBuf.C05_no_panic`, `BytesBuf.C06_error_iff_and_no_effect`, `BytesBuf.C07_typed_reads`, `BytesBuf.C07_readBytes`, `BytesBuf.C08_write_then_read`, `BytesBuf.C09_typed_writes`, `BytesBuf.C09_frame`, `BytesBuf.C10_readBytes_partial`, `Golomb.C11_readBits`, `Golomb.C11_readBits32`, `Golomb.C11_readBits64`, `Golomb.C12_ue_roundtrip`, `Golomb.C13_se_partial`, `Golomb.C13_se_mod_partial`, `C14_put_get`, `C14_get_put`, `C14_panic_iff`, `RingBuf.C15_ringBuffer_is_bounded_fifo`, `RingBuf.C16_queue_is_deque`, `LList.C17_linkedList_is_list`, `RefCounter.C18_exactly_one_release_sees_zero`, `C19_direct_buffer`, `C20_fetched_blocks_immutable`, `C21_new_buffer_panics_iff`, `C21_split_off_partial`, `C21_ring_split_off`, `C22_ring_fetch`, `C23_fetched_blocks_immutable_partial`, `C23_light_load_partial`, `C23_full_overwrites`, `C23_second_growth_loses_count`, `C25_direct_pipeline`, `C25_direct_pipeline_total`, `C26_find_start_code`, `C26_find_start_code2`, `C27_find_with_reader`, `C28_dispatch`, `C28_avc_key_frame`, `C29_hevc_key_frame`, `C30_exact`, `C30_split`, `C30_split_annexB`, `C32_decompose`, `C32_avcc_to_annexB`, `C32_fits`, `C33_extra_data`, `C34_exact`, `C34_fits`, `C34_annexB_to_avcc_partial`, `C34_no_start_code`, `C34_empty_unit_violated`, `C35_round_trip`, `C36_exact`, `C36_panics_iff`, `C36_clean`, `C36_claim_violated`, `C36_total_partial`, `C36_unchanged`, `C36_repeat`, `C37_mp4_to_annexB`, `C38_exact`, `C38_panics_iff`, `C38_many_sps`, `C38_one_sps_partial`, `C38_too_many`, `C39_exact`, `C39_panics_iff`, `C39_avc_parameter_sets`, `C40_exact`, `C40_panics_iff`, `C40_hevc_parameter_sets`, `C41_marshal`, `C41_round_trip`, `C41_too_big`, `C42_record`, `C42_not_record`, `C42_total`, `C43_record`, `C43_not_record`, `C43_total`, `C44_marshal`, `C44_too_big`, `C44_last_sps_partial`, `C44_one_sps_partial`, `C44_two_sps_violated`, `C45_total`, `C45_record`, `C45_not_record`, `C46_hevc_ok`, `C46_hevc_err`, `C46_decompose`, `C48_parse_partial`, `C48_standard_size`, `C48_standard_size_420`, `C48_claim_violated`, `C48_scaling444_violated`, `C48_standard_size_violated`, `C49_panic_iff`, `C50_claim_violated`, `C50_partial`, `C50_size`, `C50_timing`, `C50_exact`, `C51_parse`, `C53_write`, `C53_write_short`, `C53_read`, `C53_round_trip`, `C53_read_bad`, `C54_layout`, `C54_parse`, `C54_parse_bad`, `C54_adts_to_config`, `C55_rate_of_index_partial`, `C57_accurate`, `C57_below_two`, `C57_odd`, `C57_monotone`, `C57_identity`, `C57_exact_to_multiple`, `C57_milliseconds`, `C57_there_and_back`, `C57_back_and_there`, `C57_claim_first_version_violated`, `C57_not_exact_truncation`, `C57_not_reversible`, `C58_distinct`, `C58_video`, `C58_audio`, `C58_free`, `C58_freed`, `C59_index_stable`, `C60_dense`, `C60_media_type`, `C60_injective`, `C61_order`, `C61_when`, `C61_grows`, `C62_exact_probing`, `C62_exact`, `C62_lanes_are_tracks`, `C62_conserved`, `C62_held_back`, `C62_in_order_partial`, `C62_each_once_partial`, `C62_packet_input`, `C62_probing_partial`, `C62_audio_input`, `C62_video_input`, `C62_claim_violated`, `C63_sorted`, `C63_input_order_firsts`, `C63_input_order`, `C63_settled`, `C63_orderly`, `C63_order_lost`, `C64_queued_orderly`, `C64_own_orderly_partial`, `C64_orderly_needed`, `C64_blocks`, `C64_count`, `C64_freed`, `C64_manual`, `C64_queued_blocks`, `C64_own_block_partial`, `C64_claim_violated`, `C65_once`, `C65_forced`, `C65_exact`, `C65_on_packet_partial`, `C65_packet_input`, `C65_claim_violated`, `C65_setting`, `C65_exact_calls`, `C66_index`, `C66_lookup`, `C66_order_free`, `C66_any_input_false`, `C67_g726`, `C67_pcm_partial`, `C67_pcm_above`, `C67_unchanged`, `C67_claim_violated`, `C68_h264`, `C68_h264_total`, `C68_h265`, `C68_no_parameters`, `C68_claim_violated`, `C68_h265_new_violated`, `C68_h265_malformed`, `C68_annexB_same`, `C68_annexB_key`, `C69_avc_new`, `C69_avc_new_iff`, `C69_avc_mp4`, `C69_avc_round_trip`, `C69_avc_too_big`, `C69_avc_record`, `C69_avc_record_iff`, `C69_hevc_round_trip`, `C69_hevc_too_big`, `C69_hevc_record`, `C69_hevc_record_total`, `C70_header_fields`, `C71_record`, `C71_total`, `C72_step`, `C72_exact`, `C72_packets_exact`, `C72_sound_partial`, `C72_flv`, `C72_no_key_frames`, `C72_short_panics`, `C72_bad_frames`, `C72_claim_violated`, `C72_bad_tracks`, `C73_source`, `C73_key_frame`, `C73_audio`, `C73_refused`, `C74_exact`, `C74_one_packet_partial`, `C74_packet_input`, `C74_again`, `C74_claim_violated`, `C75_audio`, `C75_video`, `C75_lookup`, `C75_one_per_type_partial`, `C75_claim_violated`, `C75_places`, `C75_count`, `C76_type_total`, `C76_type_injective`, `C76_codec_injective`, `C76_codec_table`, `C76_type_table`, `C76_file_injective`, `C77_contents`, `C77_contents_partial`, `C77_total`, `C77_demuxer`, `C77_claim_violated`, `C77_old_file_violated`, `C77_mode_violated`, `C78_delivered_bytes`, `C78_direct_claim_violated`, `C78_orderly`, `C79_silent`, `C79_probing`, `C79_probe_complete`, `C79_completed`, `C79_open`, `C79_history`, `C79_reopen`, `C79_callback_gone`, `C79_discard`, `C79_claim_violated`, `C79_exact`, `C79_exact_track`, `C80_frames_per_second`, `C80_claim_violated`, `C81_packet_objects`, `C81_transfer`, `C81_any_handler_violated`, `C82_ring_room`, `C82_direct_available`, `RingBuf.C83_queue_partial`, `RingBuf.C83_ring_partial`, `RingBuf.C83_queue_stale`, `RingBuf.C83_ring_stale`, `C85_inherit`, `C86_read_exact`, `C86_read_aligned_partial`, `C86_read_rounds_down`, `C86_write_exact`, `C86_write_aligned_partial`, `C86_round_trip`, `C86_truncated_panics`, `C86_seek`, `C86_violated`, `C87_same`, `C87_accurate`, `C87_dts_le_pts`, `C87_order`, `C87_delta_near`, `C87_delta_not_exact`, `C88_avc`, `C88_hevc`, `C88_panics_iff`, `C88_agrees`, `C88_avc_record`, `C88_hevc_record`, `C89_min_max`, `C90_video`, `C90_avc_key_frame`, `C90_hevc_key_frame`, `C90_extra_data`, `C90_streams_keep`, `C91_read_exact`, `C91_m4vc_partial`, `C91_to_avcc_partial`, `C91_to_avcc_exact`, `C91_claim_violated`, `C91_to_avcc_violated`, `Golomb.C92_ue_exact`, `Golomb.C92_accepted_partial`, `Golomb.C92_rejected_partial`, `Golomb.C92_se_partial`, `C93_avc_partial`, `C93_avc_unique`, `C93_avc_violated`, `C93_hevc_partial`, `C93_hevc_short`, `C93_claim_violated`, `C94_taken`, `C94_files`, `C94_files_any`, `C95_lists`, `C95_memory_lists`, `C96_timestamps`, `C96_frame_rate`, `C96_aac_frame`, `C97_independent`, `C97_transfer`, `C97_rogue_handler`, `C98_beginning`, `C98_demuxer`, `C98_flv`, `C98_left_behind`, `C99_flv_hevc_conserved`, `C99_taken`, `C99_files`, `C99_files_any`, `C99_conserved`, `C99_flv`, `C99_flv_conserved`, `C99_flv_hevc`, `C99_flv_orderly`, `C99_order_lost`, `C99_read`, `C99_flv_memory`, `C99_flv_hevc_memory`, `C100_agrees`, `C100_packet`, `C100_track`, `C100_history`, `C100_blocks`, `C100_order`, `C100_claim_violated`, `C101_once`, `C101_release`, `C101_blame`, `C101_order`, `C101_never_announced`, `C101_stuck`, `C101_live`, `C101_order_violated`, `C101_lost_violated`, `C101_claim_violated`, `C101_callback_violated`, `C102_replay`, `C102_close`, `C102_live`, `C102_announce`, `C102_closed`, `C102_claim_violated`, `C103_auto_free`, `C103_panics`, `C103_reached`, `C104_pipe`, `RingBuf.C104_queue`, `C104_direct`, `C104_direct_violated`, `C104_ring`, `C104_ring_once`, `C104_ring_live`, `C104_streams`, `C105_modest`, `C105_packet_input`, `C105_queued`, `C105_payloads_not_enough`, `C106_never`, `C106_unbounded`, `C106_while_probing`, `C106_packets`, `C106_exact`, `C106_not_early`, `C106_milliseconds`, `C106_memory`, `C106_files`, `C106_claim_violated`, `C107_avc`, `C107_avc_relayed`, `C107_units_unique`, `C107_hevc`, `C107_hevc_relayed`, `C107_differs`, `C107_sei_violated`, `C107_sets_violated`, `C108_decodes`, `C108_claim_violated`, `C109_cut`, `C109_unique`, `C109_written`, `C109_adts`, `C109_claim_violated`, `C110_lookup`, `C110_exact`, `C110_process`, `C110_completed`, `C110_paced`, `C110_total`, `C110_still`, `C110_claim_violated`, `C111_ends`, `C111_disorder`, `C111_jitter`, `C111_track`, `C111_claim_violated`, `C112_access`, `C112_flv`, `C112_flv_hevc`, `C112_claim_violated`, `C112_flv_hevc_violated`, `C113_same`, `C113_tracks`, `C113_equal`, `C113_packets`, `C113_claim_violated`, `C113_shared_violated`, `C114_key_frame`, `C114_split`, `C114_to_avcc`, `C114_avc_sps`, `C114_hevc_sps`, `C114_parse_nal_units`, `C114_key_frame_floor`, `C114_split_floor`, `C114_to_avcc_floor`, `C114_avc_sps_floor`, `C114_hevc_sps_floor`, `C114_reads`, `C115_ticks_wrapped`, `C115_ticks`, `C115_milliseconds`, `C115_drift_bound`, `C115_exact_flv`, `C115_drift`, `C115_claim_violated`, `C116_pcm`, `C116_g726`, `C116_right`, `C116_whole_milliseconds`, `C116_g726_right`, `C116_claim_violated`, `C116_second_track`, `C116_stereo`, `C117_none_lost`, `C117_peak`, `C117_settled`, `C117_constant`, `C117_wasteful`, `C117_collected`, `C117_rogue_handler`, `C118_hevc`, `C118_avc`, `C118_avc_accepts_partial`, `C119_avcc`, `C119_hevc`, `C119_annexb`, `C119_packet_annexb`, `C119_packet_avcc`, `C119_kept`, `C119_own`, `C119_overlap`, `C120_exact`, `C120_unique`, `C120_h265_partial`, `C120_record`, `C120_claim_violated`, `Threads.C121_race_free`, `Threads.C121_same`, `Threads.C121_apart`, `Threads.C121_returned`, `Threads.C121_finishes`, `Threads.C121_transfer`, `C122_exact`, `C122_total`, `C122_complete_iff`, `C122_enough`, `C123_avcc`, `C123_hevc`, `C123_avcc_count`, `C123_hevc_count`, `C123_cut_iff`, `C124_avc`, `C124_hevc`, `C124_avc_safe`, `C124_hevc_safe`, `C124_avc_size`, `C124_hevc_size`, `C124_claim_violated`, `C124_order`, `C124_avc_back`, `C124_hevc_back`, `C124_avc_codec`, `C124_hevc_codec`, `C125_durations`, `C125_modulo`, `C125_sum`, `C125_order`, `C125_early`, `C125_goes_on`, `C125_long_probe`, `C125_probing`, `C125_restart`, `C125_claim_violated`, `GolombIO.C126_fields`, `GolombIO.C126_ue`, `GolombIO.C126_ue_cut`, `C127_write`, `C127_read`, `C127_slices`, `C127_moves`, `C127_step`, `C127_history`, `C127_unseen`, `C127_seen`, `C127_append`, `C127_disjoint`, `C128_in_step`, `C128_written`, `C128_from_start`, `C128_avc_sps`, `C128_hevc_sps`, `C128_everywhere`
