import Verif.AudioFix.Props
import Verif.AudioFix.PropsFar
import Verif.Base64.Props
import Verif.BitStream.Props
import Verif.Box.Props
import Verif.Buffer.Props
import Verif.Cenc.Props
import Verif.Clock.Props
import Verif.Cmdline.Props
import Verif.Cmdline.Props2
import Verif.Cmdline.Props3
import Verif.CodecData.Props
import Verif.Crc.Props
import Verif.Dash.Props
import Verif.Dash.Props2
import Verif.Dash.Props3
import Verif.Dash.PropsEx
import Verif.Date.Props
import Verif.Date.PropsText
import Verif.Demux.PropsAdts
import Verif.Demux.PropsBridge
import Verif.Demux.PropsNal
import Verif.Demux.PropsPacket
import Verif.Demux.PropsPes
import Verif.Demux.PropsRound
import Verif.Demux.PropsStream
import Verif.Demux.PropsUnits
import Verif.Demux.PropsUnitsEx
import Verif.Demux.PropsVideo
import Verif.Drm.Props
import Verif.Drm.Props2
import Verif.Drm.Props3
import Verif.Dynamic.Props
import Verif.Dynamic.PropsFiles
import Verif.Edit.Props
import Verif.Edit.Props2
import Verif.Edit.Props3
import Verif.Edit.Props4
import Verif.Esds.Props
import Verif.Esds.PropsFile
import Verif.Event.Props
import Verif.Event.PropsWake
import Verif.FileAsync.Props
import Verif.FileAsync.PropsCopy
import Verif.FileAsync.PropsData
import Verif.FileReader.Props
import Verif.FileReader.PropsEnd
import Verif.FileReader.PropsSeek
import Verif.Fragment.Props
import Verif.Gop.Props
import Verif.Gop.PropsList
import Verif.Gop.PropsPick
import Verif.H264.PropsAvcc
import Verif.H264.PropsNal
import Verif.H264.PropsSps
import Verif.HlsCrypt.Props
import Verif.Interleave.Props
import Verif.KeyText.Props
import Verif.Level.Props
import Verif.Level.Props2
import Verif.Level.Props3
import Verif.LoopThread.Props
import Verif.Moof.Props
import Verif.Moof.PropsAny
import Verif.Moof.PropsWitness
import Verif.Movie.Props
import Verif.Movie.PropsDuration
import Verif.Movie.PropsInit
import Verif.Parse.Props
import Verif.Parse.PropsBad
import Verif.Parse.PropsSteps
import Verif.Pes.Props
import Verif.Presentation.Props
import Verif.Promise.Props
import Verif.Psi.PropsRound
import Verif.Psi.PropsRouting
import Verif.Psi.PropsTables
import Verif.Psi.PropsWitness
import Verif.Publish.Props
import Verif.Publish.PropsEnd
import Verif.Publish.PropsWhole
import Verif.Queue.Props
import Verif.Queue.PropsGrow
import Verif.RangeMap.Props
import Verif.Rate.Props
import Verif.Reader.Props
import Verif.Reader.PropsFrames
import Verif.Reader.PropsMove
import Verif.Remux.Props
import Verif.Remux.PropsExample
import Verif.Remux.PropsMovie
import Verif.Render.Props
import Verif.Render.PropsHls
import Verif.Render.PropsHlsMain
import Verif.Render.PropsMpd
import Verif.Render.PropsSmooth
import Verif.Render.PropsText
import Verif.Render.PropsUrl
import Verif.Request.Props
import Verif.Resource.Props
import Verif.Slice.Props
import Verif.Slice.PropsEx
import Verif.Slice.PropsList
import Verif.Slice.PropsSlice
import Verif.Span.Props
import Verif.Strings.Props
import Verif.Tables.Props
import Verif.Tables.PropsOrder
import Verif.Tables.PropsRead
import Verif.Tables.PropsTime
import Verif.TimeCode.Props
import Verif.TimeCode.PropsLtc
import Verif.TimeCode.PropsStream
import Verif.Ts.Props
import Verif.Ts.PropsTables
import Verif.TsMux.Props
import Verif.TsMux.PropsHls
import Verif.TsMux.PropsMux
import Verif.TsMux.PropsTables
import Verif.Validation.Props

/-! Axioms every property theorem depends on; read the build log. -/

#print axioms Verif.Base64.base64_roundtrip
#print axioms Verif.Base64.base64_encode_is_rfc4648
#print axioms Verif.Base64.base64_encode_length
#print axioms Verif.Base64.base64_decode_block_independent
#print axioms Verif.Base64.base64_decode_ignores_foreign_partial
#print axioms Verif.Base64.base64_decode_table_overrun
#print axioms Verif.BitStream.bits_roundtrip
#print axioms Verif.BitStream.bitwriter_output
#print axioms Verif.BitStream.bitwriter_memory_partial
#print axioms Verif.BitStream.bitwriter_oob_witness
#print axioms Verif.BitStream.sgetbits_sign_extends
#print axioms Verif.BitStream.reader_ignores_memory_beyond
#print axioms Verif.BitStream.getbits_end_of_data
#print axioms Verif.BitStream.little_roundtrip
#print axioms Verif.Buffer.cbuffer_content
#print axioms Verif.Buffer.memory_storage_is_file
#print axioms Verif.Box.boxes_written
#print axioms Verif.Box.boxes_parsed
#print axioms Verif.Box.memory_stream_is_file
#print axioms Verif.Tables.stsc_written
#print axioms Verif.Tables.samples_found_partial
#print axioms Verif.Tables.chunks_partition
#print axioms Verif.Tables.stts_written_partial
#print axioms Verif.Tables.stts_single_witness
#print axioms Verif.Tables.stts_no_drift
#print axioms Verif.Tables.stts_drift_bound
#print axioms Verif.Tables.stts_drift_witness
#print axioms Verif.Tables.ctts_written
#print axioms Verif.Tables.ctts_omitted
#print axioms Verif.Tables.stsz_written_partial
#print axioms Verif.Tables.stsz_equal_sizes_witness
#print axioms Verif.RangeMap.range_map_total
#print axioms Verif.RangeMap.range_map_first
#print axioms Verif.Tables.stsc_read
#print axioms Verif.Tables.stts_read
#print axioms Verif.Tables.decoding_sample_read
#print axioms Verif.Tables.stss_read
#print axioms Verif.Tables.stss_roundtrip_partial
#print axioms Verif.Tables.stss_no_sync_witness
#print axioms Verif.Tables.ctts_read_partial
#print axioms Verif.Tables.ctts_first_witness
#print axioms Verif.Tables.composition_sample_read_partial
#print axioms Verif.Tables.composition_sample_after_end_witness
#print axioms Verif.Interleave.interleaving_conserves
#print axioms Verif.Interleave.end_writes_all_partial
#print axioms Verif.Interleave.end_loses_samples_witness
#print axioms Verif.Interleave.add_sample_returns
#print axioms Verif.Crc.crc_is_mpeg2
#print axioms Verif.Crc.crc_residue_zero
#print axioms Verif.Ts.output_ts_carries_payload_partial
#print axioms Verif.Ts.output_ts_short_random_access
#print axioms Verif.Ts.continuity
#print axioms Verif.Ts.fill_completes_cycle
#print axioms Verif.Ts.pcr_survives
#print axioms Verif.Pes.stamps_survive
#print axioms Verif.Pes.pes_length_right_partial
#print axioms Verif.Pes.pes_length_witness
#print axioms Verif.TsMux.video_access_unit
#print axioms Verif.Ts.tables_describe_streams
#print axioms Verif.Ts.tables_repeat
#print axioms Verif.TsMux.mux_tables_partial
#print axioms Verif.TsMux.mux_tables_ltc_witness
#print axioms Verif.TsMux.mux_delivers_partial
#print axioms Verif.TsMux.mux_short_key_frame_witness
#print axioms Verif.TsMux.adts_frame
#print axioms Verif.TsMux.hls_rebase
#print axioms Verif.Cenc.counter8_increments
#print axioms Verif.Cenc.counter_increments
#print axioms Verif.Cenc.sample_split
#print axioms Verif.Cenc.decryption_gives_samples
#print axioms Verif.Cenc.counter_blocks_distinct
#print axioms Verif.Fragment.fragment_read_back
#print axioms Verif.Fragment.fragment_times
#print axioms Verif.Fragment.segment_index_partial
#print axioms Verif.Fragment.segment_index_late_witness
#print axioms Verif.Strings.split_join
#print axioms Verif.Strings.replace_all
#print axioms Verif.Strings.Spec.Splits.unique
#print axioms Verif.Strings.Spec.Replaced.unique
#print axioms Verif.Strings.split_empty_hangs
#print axioms Verif.Strings.hex_text
#print axioms Verif.Strings.hex_extract
#print axioms Verif.Strings.hex_round_trip
#print axioms Verif.Strings.hex_extract_lax_witness
#print axioms Verif.HlsCrypt.encrypt_decrypt
#print axioms Verif.HlsCrypt.encrypt_refuses
#print axioms Verif.HlsCrypt.file_decrypt
#print axioms Verif.HlsCrypt.player_iv_partial
#print axioms Verif.HlsCrypt.player_iv_witness
#print axioms Verif.Dynamic.points_tile
#print axioms Verif.Dynamic.points_duration
#print axioms Verif.Dynamic.points_rebase
#print axioms Verif.Dynamic.presentation_rebase
#print axioms Verif.Dynamic.path_covers
#print axioms Verif.Dynamic.path_rebase
#print axioms Verif.Dynamic.closest_partial
#print axioms Verif.Dynamic.closest_single_witness
#print axioms Verif.Dynamic.join_in_sync
#print axioms Verif.Dynamic.segment_end_partial
#print axioms Verif.Dynamic.segment_end_cross_witness
#print axioms Verif.Dynamic.cross_rebase_witness
#print axioms Verif.Dynamic.publish_spacing
#print axioms Verif.Render.mpd_read
#print axioms Verif.Render.mpd_timeline
#print axioms Verif.Render.duration_text_partial
#print axioms Verif.Render.mpd_duration_partial
#print axioms Verif.Render.duration_text_witness
#print axioms Verif.Clock.time_recompose
#print axioms Verif.Clock.time_decompose
#print axioms Verif.Clock.hns_text
#print axioms Verif.Render.mpd_addresses
#print axioms Verif.Render.mpd_ids_unique_partial
#print axioms Verif.Render.mpd_ids_witness
#print axioms Verif.Render.codec_name_partial
#print axioms Verif.Render.codec_name_witness
#print axioms Verif.Render.mpd_codecs
#print axioms Verif.Render.hls_playlist
#print axioms Verif.Render.hls_target_partial
#print axioms Verif.Render.hls_target_witness
#print axioms Verif.Render.hls_end_witness
#print axioms Verif.Render.hls_files_partial
#print axioms Verif.Render.hls_files_witness
#print axioms Verif.Render.hls_master
#print axioms Verif.Render.hls_two_streams_witness
#print axioms Verif.Render.smooth_read
#print axioms Verif.Render.smooth_addresses
#print axioms Verif.Render.smooth_codec_data
#print axioms Verif.Render.smooth_levels_partial
#print axioms Verif.Render.smooth_count_wrong
#print axioms Verif.Queue.fixed_fifo
#print axioms Verif.Queue.grow_unbounded
#print axioms Verif.Resource.release_once_partial
#print axioms Verif.Resource.assign_takes_value_partial
#print axioms Verif.Resource.self_assign_faults
#print axioms Verif.Resource.advance_faults
#print axioms Verif.H264.nal_roundtrip_partial
#print axioms Verif.H264.nal_loses_last_three
#print axioms Verif.H264.nal_in_place
#print axioms Verif.H264.ue_read_partial
#print axioms Verif.H264.se_read_partial
#print axioms Verif.H264.ue_witness
#print axioms Verif.H264.se_witness
#print axioms Verif.H264.sps_read_partial
#print axioms Verif.H264.sps_last
#print axioms Verif.H264.sps_ending_in_three
#print axioms Verif.H264.sps_profile_44
#print axioms Verif.H264.avcc_written_partial
#print axioms Verif.H264.avcc_reread_partial
#print axioms Verif.H264.avcc_read_partial
#print axioms Verif.H264.avcc_two_sets
#print axioms Verif.H264.avcc_overrun
#print axioms Verif.H264.compatibility_witness
#print axioms Verif.H264.extension_witness
#print axioms Verif.H264.size_partial
#print axioms Verif.H264.size_found
#print axioms Verif.H264.size_witness
#print axioms Verif.H264.size_interlaced_witness
#print axioms Verif.Event.wakeup_partial
#print axioms Verif.Event.wait_after_signal
#print axioms Verif.Event.lost_wakeup
#print axioms Verif.Event.one_waiter_only
#print axioms Verif.Event.wait_without_signal
#print axioms Verif.Event.timed_true_sound
#print axioms Verif.Event.timed_after_signal
#print axioms Verif.Event.reset_clears
#print axioms Verif.Promise.calls_partial
#print axioms Verif.Promise.order_irrelevant_partial
#print axioms Verif.Promise.no_result_no_call
#print axioms Verif.Promise.late_forward
#print axioms Verif.Promise.null_lost
#print axioms Verif.Promise.error_twice
#print axioms Verif.Promise.throwing_order
#print axioms Verif.FileAsync.answered_once
#print axioms Verif.FileAsync.reads_in_order
#print axioms Verif.FileAsync.mixed_out_of_order
#print axioms Verif.FileAsync.failure_lost
#print axioms Verif.FileAsync.wrong_failure
#print axioms Verif.FileAsync.reads_are_the_file
#print axioms Verif.FileAsync.writes_are_the_file
#print axioms Verif.FileAsync.writes_any_order
#print axioms Verif.FileAsync.rewrite_lost
#print axioms Verif.FileAsync.copy_all
#print axioms Verif.FileAsync.copy_exact
#print axioms Verif.FileAsync.copy_partial
#print axioms Verif.FileAsync.copy_overshoots
#print axioms Verif.Esds.length_read
#print axioms Verif.Esds.length_roundtrip_partial
#print axioms Verif.Esds.length_witness
#print axioms Verif.Esds.esds_written_partial
#print axioms Verif.Esds.esds_roundtrip_partial
#print axioms Verif.Esds.esds_read_partial
#print axioms Verif.Esds.no_info_witness
#print axioms Verif.Esds.explicit_frequency_witness
#print axioms Verif.Esds.escape_witness
#print axioms Verif.Esds.private_data_partial
#print axioms Verif.Esds.private_data_witness
#print axioms Verif.Esds.private_data_sbr_witness
#print axioms Verif.Reader.file_read_complete
#print axioms Verif.Reader.file_read_in_order
#print axioms Verif.Reader.file_read_cut_witness
#print axioms Verif.Reader.fragment_audio
#print axioms Verif.Reader.fragments_partition_audio
#print axioms Verif.Reader.fragment_video_partial
#print axioms Verif.Reader.fragments_partition_video_partial
#print axioms Verif.Reader.fragment_open_gop_witness
#print axioms Verif.Reader.fragment_close_sync_witness
#print axioms Verif.Reader.fragment_offset_witness
#print axioms Verif.Reader.move_at_or_before_sync
#print axioms Verif.Reader.move_rounding_witness
#print axioms Verif.Reader.base_time_set
#print axioms Verif.Reader.base_time_partial
#print axioms Verif.Reader.base_time_witness
#print axioms Verif.FileReader.file_prefix_partial
#print axioms Verif.FileReader.file_read_partial
#print axioms Verif.FileReader.file_fields_partial
#print axioms Verif.FileReader.last_bytes_witness
#print axioms Verif.FileReader.whole_file
#print axioms Verif.FileReader.pages_partial
#print axioms Verif.FileReader.early_end_witness
#print axioms Verif.FileReader.zero_padding_witness
#print axioms Verif.FileReader.read_leaves_few
#print axioms Verif.FileReader.moves_partial
#print axioms Verif.FileReader.seek_rest_partial
#print axioms Verif.FileReader.far_seek_witness
#print axioms Verif.FileReader.unaligned_seek_witness
#print axioms Verif.FileReader.late_seek_witness
#print axioms Verif.FileReader.past_end_witness
#print axioms Verif.FileReader.long_skip_witness
#print axioms Verif.FileReader.late_skip_witness
#print axioms Verif.Demux.nal_units_recovered_partial
#print axioms Verif.Demux.nal_padding_witness
#print axioms Verif.Demux.nal_no_start_code_witness
#print axioms Verif.Demux.adts_frames_recovered_partial
#print axioms Verif.Demux.adts_short_frame_witness
#print axioms Verif.Demux.adts_data_from_payload
#print axioms Verif.Demux.frame_times_exact_partial
#print axioms Verif.Demux.frame_times_drift
#print axioms Verif.Demux.frame_times_witness
#print axioms Verif.Demux.access_unit_to_sample
#print axioms Verif.Demux.remuxed_samples
#print axioms Verif.Demux.parameter_change_witness
#print axioms Verif.Demux.packet_read_partial
#print axioms Verif.Demux.stream_read_partial
#print axioms Verif.Demux.packet_progress
#print axioms Verif.Demux.packets_end
#print axioms Verif.Demux.private_data_witness
#print axioms Verif.Demux.error_packet_witness
#print axioms Verif.Demux.pes_header_read_partial
#print axioms Verif.Demux.pes_header_witness
#print axioms Verif.Demux.pes_delivered_partial
#print axioms Verif.Demux.pes_flags_partial
#print axioms Verif.Demux.unbounded_witness
#print axioms Verif.Demux.short_audio_witness
#print axioms Verif.Demux.mux_demux_partial
#print axioms Verif.Demux.mux_demux_video_partial
#print axioms Verif.Demux.mux_demux_audio_partial
#print axioms Verif.Psi.file_round_partial
#print axioms Verif.Psi.many_streams_witness
#print axioms Verif.Psi.tables_read_partial
#print axioms Verif.Psi.table_after_others
#print axioms Verif.Psi.psi_boundary_witness
#print axioms Verif.Psi.psi_empty_witness
#print axioms Verif.Psi.psi_sections_witness
#print axioms Verif.Psi.psi_network_witness
#print axioms Verif.Psi.psi_next_witness
#print axioms Verif.Psi.psi_crc_witness
#print axioms Verif.Psi.streams_delivered_partial
#print axioms Verif.Moof.fragments_delivered_partial
#print axioms Verif.Moof.fragments_round_trip_partial
#print axioms Verif.Moof.any_fragments_partial
#print axioms Verif.Moof.unsigned_offset
#print axioms Verif.Moof.earlier_run_is_lost
#print axioms Verif.Moof.earlier_track_is_lost
#print axioms Verif.Moof.no_base_time
#print axioms Verif.Moof.base_time_of_the_fragment_before
#print axioms Verif.Moof.long_duration_is_negative
#print axioms Verif.Moof.movie_defaults_are_not_read
#print axioms Verif.Moof.user_box_content_is_read
#print axioms Verif.Moof.large_data_box
#print axioms Verif.Moof.free_box_of_size_zero
#print axioms Verif.Moof.strict_parse_refuses
#print axioms Verif.Moof.clear_after_encrypted
#print axioms Verif.Moof.decrypt_standard
#print axioms Verif.Cmdline.values_partial
#print axioms Verif.Cmdline.mg_declared
#print axioms Verif.Cmdline.line_good
#print axioms Verif.Cmdline.value_with_colon_lost
#print axioms Verif.Cmdline.switch_by_shortcut
#print axioms Verif.Cmdline.help_shortcut
#print axioms Verif.Cmdline.dash_help
#print axioms Verif.Cmdline.unknown_has_shortcut
#print axioms Verif.Cmdline.required_checked
#print axioms Verif.Cmdline.required_partial
#print axioms Verif.Cmdline.integer_value_partial
#print axioms Verif.Cmdline.toInt64_spec
#print axioms Verif.Cmdline.toBool_spec
#print axioms Verif.Cmdline.number_surprises
#print axioms Verif.Cmdline.switch_is_false
#print axioms Verif.Edit.samples_of_part
#print axioms Verif.Edit.whole_file_partial
#print axioms Verif.Edit.short_file_refused_witness
#print axioms Verif.Edit.first_audio_lost_witness
#print axioms Verif.Edit.files_follow_partial
#print axioms Verif.Edit.decoded_after_presented_witness
#print axioms Verif.Edit.leading_picture_witness
#print axioms Verif.Edit.end_forgotten_witness
#print axioms Verif.Edit.joined_files_fit_partial
#print axioms Verif.Edit.longer_pps_accepted_witness
#print axioms Verif.Edit.unusable_stream_first_witness
#print axioms Verif.Level.auto_decoding
#print axioms Verif.Level.auto_no_offset
#print axioms Verif.Level.auto_span
#print axioms Verif.Level.auto_regular
#print axioms Verif.Level.auto_repeated_witness
#print axioms Verif.Level.auto_duplicate_witness
#print axioms Verif.Level.level_shown
#print axioms Verif.Level.level_sync_partial
#print axioms Verif.Level.finish_sync_partial
#print axioms Verif.Level.track_read
#print axioms Verif.Level.movie_read_partial
#print axioms Verif.Level.early_decoding_witness
#print axioms Verif.Level.leading_picture_witness
#print axioms Verif.Level.empty_movie_witness
#print axioms Verif.Level.empty_stream_witness
#print axioms Verif.Level.delay_truncated_witness
#print axioms Verif.LoopThread.served_or_open
#print axioms Verif.LoopThread.request_served
#print axioms Verif.LoopThread.end_returns
#print axioms Verif.LoopThread.end_serves_all_partial
#print axioms Verif.LoopThread.end_throws_iff
#print axioms Verif.LoopThread.nothing_served_after_exception
#print axioms Verif.LoopThread.request_lost_witness
#print axioms Verif.LoopThread.destructor_terminates_witness
#print axioms Verif.Edit.segment_holds_window_partial
#print axioms Verif.Edit.segments_partition_partial
#print axioms Verif.Edit.open_group_refused_witness
#print axioms Verif.Edit.edit_list_lost_witness
#print axioms Verif.Edit.last_segment_refused_witness
#print axioms Verif.Edit.segment_times_partial
#print axioms Verif.Edit.segments_one_timeline_partial
#print axioms Verif.Edit.segment_jump_witness
#print axioms Verif.Drm.playready_object_partial
#print axioms Verif.Drm.playready_object_linux_witness
#print axioms Verif.Drm.playready_long_header_witness
#print axioms Verif.Drm.kid_layout
#print axioms Verif.Drm.playready_header_partial
#print axioms Verif.Drm.playready_url_not_escaped_witness
#print axioms Verif.Drm.playready_manifest
#print axioms Verif.Drm.clearkey_manifest
#print axioms Verif.Drm.widevine_manifest
#print axioms Verif.Drm.pssh_boxes_parse
#print axioms Verif.Drm.pssh_copy_partial
#print axioms Verif.Drm.pssh_kids_lost_witness
#print axioms Verif.Drm.dump_playready_partial
#print axioms Verif.Drm.dump_linux_reads_outside_witness
#print axioms Verif.Drm.dump_own_linux_witness
#print axioms Verif.Drm.dump_second_record_witness
#print axioms Verif.Drm.json_key_partial
#print axioms Verif.Drm.json_key_padding_witness
#print axioms Verif.Dash.segment_holds_samples_partial
#print axioms Verif.Dash.segment_all
#print axioms Verif.Dash.segment_times_partial
#print axioms Verif.Dash.segment_times_witness
#print axioms Verif.Dash.stream_segments_complete_partial
#print axioms Verif.Dash.cross_segment_partial
#print axioms Verif.Movie.movie_round_trip_partial
#print axioms Verif.Movie.movie_times_partial
#print axioms Verif.Movie.Sample.equal_sizes_witness
#print axioms Verif.Movie.Sample.no_key_frame_witness
#print axioms Verif.Movie.Sample.one_sample_witness
#print axioms Verif.Movie.movie_parameters_partial
#print axioms Verif.Movie.movie_edits_partial
#print axioms Verif.Movie.Sample.sample_rate_witness
#print axioms Verif.Movie.movie_durations_partial
#print axioms Verif.Movie.Sample.duration_witness
#print axioms Verif.Movie.Sample.movie_duration_witness
#print axioms Verif.Movie.Sample.duration_underflow_witness
#print axioms Verif.Movie.init_round_trip_partial
#print axioms Verif.Movie.init_duration_witness
#print axioms Verif.TimeCode.word_round_trip
#print axioms Verif.TimeCode.word_back
#print axioms Verif.TimeCode.add_total
#print axioms Verif.TimeCode.ofTime_total
#print axioms Verif.TimeCode.sumHnano_total
#print axioms Verif.TimeCode.inc_total
#print axioms Verif.TimeCode.proper_ext
#print axioms Verif.TimeCode.sub32_partial
#print axioms Verif.TimeCode.sub64_partial
#print axioms Verif.TimeCode.sub64_wrong
#print axioms Verif.TimeCode.sub64_witness
#print axioms Verif.TimeCode.sub_sixty_witness
#print axioms Verif.TimeCode.sub_midnight_witness
#print axioms Verif.TimeCode.thinned_partial
#print axioms Verif.TimeCode.timecode_found_partial
#print axioms Verif.TimeCode.middle_run_witness
#print axioms Verif.TimeCode.zero_start_witness
#print axioms Verif.TimeCode.first_flag_witness
#print axioms Verif.TimeCode.thirty_witness
#print axioms Verif.TimeCode.word_read
#print axioms Verif.TimeCode.words_found
#print axioms Verif.TimeCode.biphase_in_step
#print axioms Verif.TimeCode.biphase_read
#print axioms Verif.Parse.movie_opens_partial
#print axioms Verif.Parse.readable_met
#print axioms Verif.Parse.movie_first_witness
#print axioms Verif.Parse.movie_reads_back_partial
#print axioms Verif.Parse.decided_within_length
#print axioms Verif.Parse.opening_ends_partial
#print axioms Verif.Parse.small_fits
#print axioms Verif.Parse.size_zero_witness
#print axioms Verif.Parse.cut_track_witness
#print axioms Verif.Parse.unknown_skipped
#print axioms Verif.Parse.long_size_witness
#print axioms Verif.AudioFix.fixed_steps_partial
#print axioms Verif.AudioFix.muxed_increase_partial
#print axioms Verif.AudioFix.fixed_mark_witness
#print axioms Verif.AudioFix.jitter_removed_partial
#print axioms Verif.AudioFix.muxed_regular_partial
#print axioms Verif.AudioFix.not_early_partial
#print axioms Verif.AudioFix.behind_witness
#print axioms Verif.AudioFix.long_frames_witness
#print axioms Verif.AudioFix.late_stays
#print axioms Verif.AudioFix.hole_witness
#print axioms Verif.Publish.audio_points_partial
#print axioms Verif.Publish.ex_used_from
#print axioms Verif.Publish.behind_start_endless
#print axioms Verif.Publish.late_start_endless
#print axioms Verif.Publish.near_start_endless
#print axioms Verif.Publish.second_start_endless
#print axioms Verif.Publish.rounded_start_witness
#print axioms Verif.Publish.short_segment_endless
#print axioms Verif.Publish.publish_thrown_witness
#print axioms Verif.Publish.short_file_witness
#print axioms Verif.Publish.two_streams_witness
#print axioms Verif.Publish.audio_published_partial
#print axioms Verif.Publish.tail_lost
#print axioms Verif.Publish.written_neighbours
#print axioms Verif.Publish.ex_item_used
#print axioms Verif.Publish.ex_request_good
#print axioms Verif.Gop.key_frames_published
#print axioms Verif.Gop.ex_even
#print axioms Verif.Gop.swapped_witness
#print axioms Verif.Gop.gop_list_partial
#print axioms Verif.Gop.gop_rounding_witness
#print axioms Verif.Gop.gop_reorder_witness
#print axioms Verif.Gop.stream_listed
#print axioms Verif.Gop.all_listed_partial
#print axioms Verif.Gop.listing_cut_witness
#print axioms Verif.Date.creation_time_wrong
#print axioms Verif.Date.xml_of_clock
#print axioms Verif.Date.xml_now_partial
#print axioms Verif.Date.xml_second_witness
#print axioms Verif.Date.scan_fields
#print axioms Verif.Date.read_print_partial
#print axioms Verif.Date.date_text_wrong
#print axioms Verif.Date.read_milli_witness
#print axioms Verif.Date.zone_ahead
#print axioms Verif.Date.zone_behind
#print axioms Verif.Date.zone_witness
#print axioms Verif.Date.difference_partial
#print axioms Verif.Date.difference_back
#print axioms Verif.Date.days_witness
#print axioms Verif.Remux.all_files_added_partial
#print axioms Verif.Remux.fourth_stream
#print axioms Verif.Remux.two_tracks_witness
#print axioms Verif.Remux.init_adds_nothing
#print axioms Verif.Remux.sound_added_partial
#print axioms Verif.Remux.fragments_to_movie_partial
#print axioms Verif.Remux.movie_readable
#print axioms Verif.Remux.sound_file_ok
#print axioms Verif.Validation.messages_exact
#print axioms Verif.Validation.silent_iff
#print axioms Verif.Validation.complete_files_silent
#print axioms Verif.Validation.end_reported
#print axioms Verif.Validation.last_end_not_reported
#print axioms Verif.Validation.empty_fragment_witness
#print axioms Verif.Validation.later_start_witness
#print axioms Verif.Validation.stream_witness
#print axioms Verif.Slice.pps_read_partial
#print axioms Verif.Slice.pps_print_partial
#print axioms Verif.Slice.pps_print_fails
#print axioms Verif.Slice.pps_print_ext_partial
#print axioms Verif.Slice.pps_print_witness
#print axioms Verif.Slice.pps_explicit_witness
#print axioms Verif.Slice.ppsA_ok
#print axioms Verif.Slice.ppsB_ok
#print axioms Verif.Slice.ppsB_nal
#print axioms Verif.Slice.ppsA_ext_nal
#print axioms Verif.Slice.slice_read_partial
#print axioms Verif.Slice.slices_ok
#print axioms Verif.Slice.sliceB_bytes
#print axioms Verif.Slice.field_memory_witness
#print axioms Verif.Slice.slice_type_witness
#print axioms Verif.Slice.colour_plane_witness
#print axioms Verif.Slice.listing_partial
#print axioms Verif.Slice.sei_read
#print axioms Verif.Slice.units_listed_partial
#print axioms Verif.Slice.length_size_witness
#print axioms Verif.Slice.sliceI_bytes
#print axioms Verif.Span.times_shown_partial
#print axioms Verif.Span.raw_times
#print axioms Verif.Span.ctts_read_iff
#print axioms Verif.Span.decoding_start
#print axioms Verif.Span.decoding_end_wrong
#print axioms Verif.Span.decoding_end_witness
#print axioms Verif.Presentation.streams_listed
#print axioms Verif.Presentation.streams_kept
#print axioms Verif.Presentation.segment_file
#print axioms Verif.Presentation.file_of_add
#print axioms Verif.Presentation.adds_accepted
#print axioms Verif.Presentation.rebase_moves
#print axioms Verif.Request.hls_follows
#print axioms Verif.Request.dash_follows
#print axioms Verif.Request.given_values
#print axioms Verif.Request.hls_answers_partial
#print axioms Verif.Request.hls_no_input
#print axioms Verif.Request.dash_answers_partial
#print axioms Verif.Request.dash_many_languages
#print axioms Verif.Request.dash_short_language
#print axioms Verif.Request.dash_languages_partial
#print axioms Verif.Request.languages_lost
#print axioms Verif.Request.audio_file
#print axioms Verif.Request.video_file
#print axioms Verif.Request.published_accepted
#print axioms Verif.Rate.rate_partial
#print axioms Verif.Rate.table_rate_partial
#print axioms Verif.Rate.tableOf_rate_partial
#print axioms Verif.Rate.exact_rate
#print axioms Verif.Rate.file_rate
#print axioms Verif.Rate.short_witness
#print axioms Verif.Rate.part_witness
#print axioms Verif.Rate.large_witness
#print axioms Verif.KeyText.hex_of_64
#print axioms Verif.KeyText.any_text
#print axioms Verif.KeyText.empty_key
#print axioms Verif.KeyText.decode_room
#print axioms Verif.KeyText.hex64_partial
#print axioms Verif.KeyText.hex64_no_zero
#print axioms Verif.KeyText.hex64_lost
#print axioms Verif.KeyText.hex64_odd
#print axioms Verif.KeyText.there_and_back_partial
#print axioms Verif.CodecData.rate_of_file
#print axioms Verif.CodecData.accepted_iff
#print axioms Verif.CodecData.file_published
#print axioms Verif.CodecData.init_gets
#print axioms Verif.CodecData.manifest_gets
#print axioms Verif.CodecData.codec_gets
#print axioms Verif.CodecData.long_lost
