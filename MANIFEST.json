{
 "claims": [
  {
   "property": "C01",
   "status": "proved",
   "theorems": [
    "Verif.Base64.base64_roundtrip"
   ],
   "note": "all block cuts on both sides"
  },
  {
   "property": "C02",
   "status": "proved",
   "theorems": [
    "Verif.Base64.base64_encode_is_rfc4648",
    "Verif.Base64.base64_encode_length",
    "Verif.Base64.base64_decode_block_independent"
   ],
   "note": ""
  },
  {
   "property": "C03",
   "status": "partial",
   "theorems": [
    "Verif.Base64.base64_decode_ignores_foreign_partial",
    "Verif.Base64.base64_decode_table_overrun"
   ],
   "note": "False of the code for exactly one character, '{' (123): table overrun (base64_decode_table_overrun). Proved for every text without it."
  },
  {
   "property": "C04",
   "status": "proved",
   "theorems": [
    "Verif.BitStream.bits_roundtrip"
   ],
   "note": "widths 1..32; width 0 at a byte boundary is a shift by 32 (undefined in C++) and excluded"
  },
  {
   "property": "C05",
   "status": "proved",
   "theorems": [
    "Verif.BitStream.bitwriter_output"
   ],
   "note": ""
  },
  {
   "property": "C06",
   "status": "partial",
   "theorems": [
    "Verif.BitStream.bitwriter_memory_partial",
    "Verif.BitStream.bitwriter_oob_witness"
   ],
   "note": "False of the code: 32 bit read-modify-write at the end of the buffer touches up to 3 bytes behind it (bitwriter_oob_witness). Proved: never more than 3 bytes, and their values are written back unchanged."
  },
  {
   "property": "C48",
   "status": "proved",
   "theorems": [
    "Verif.BitStream.sgetbits_sign_extends"
   ],
   "note": ""
  },
  {
   "property": "C49",
   "status": "proved",
   "theorems": [
    "Verif.BitStream.reader_ignores_memory_beyond",
    "Verif.BitStream.getbits_end_of_data"
   ],
   "note": "single memory block reader"
  },
  {
   "property": "C50",
   "status": "proved",
   "theorems": [
    "Verif.BitStream.little_roundtrip"
   ],
   "note": ""
  },
  {
   "property": "C07",
   "status": "proved",
   "theorems": [
    "Verif.Buffer.cbuffer_content"
   ],
   "note": ""
  },
  {
   "property": "C51",
   "status": "proved",
   "theorems": [
    "Verif.Buffer.memory_storage_is_file"
   ],
   "note": ""
  },
  {
   "property": "C08",
   "status": "proved",
   "theorems": [
    "Verif.Box.boxes_written",
    "Verif.Box.boxes_parsed"
   ],
   "note": "boxes below 4 GiB (the 32 bit size field cannot represent more)"
  },
  {
   "property": "C52",
   "status": "proved",
   "theorems": [
    "Verif.Box.memory_stream_is_file"
   ],
   "note": ""
  },
  {
   "property": "C09",
   "status": "proved",
   "theorems": [
    "Verif.Tables.stsc_written"
   ],
   "note": ""
  },
  {
   "property": "C10",
   "status": "partial",
   "theorems": [
    "Verif.Tables.samples_found_partial",
    "Verif.Tables.chunks_partition"
   ],
   "note": "Proved when at least two samples differ in size (otherwise the stsz written has no sizes, see C13) and offsets fit 32 bits."
  },
  {
   "property": "C11",
   "status": "partial",
   "theorems": [
    "Verif.Tables.stts_written_partial",
    "Verif.Tables.stts_single_witness",
    "Verif.Tables.stts_no_drift",
    "Verif.Tables.stts_drift_bound",
    "Verif.Tables.stts_drift_witness"
   ],
   "note": "A single sample gives a wrong table (witness). For two or more samples: the table has one duration per sample; exact times when the time scale divides 10^7, bounded error otherwise, with a witness for real drift."
  },
  {
   "property": "C12",
   "status": "proved",
   "theorems": [
    "Verif.Tables.ctts_written",
    "Verif.Tables.ctts_omitted"
   ],
   "note": ""
  },
  {
   "property": "C13",
   "status": "partial",
   "theorems": [
    "Verif.Tables.stsz_written_partial",
    "Verif.Tables.stsz_equal_sizes_witness"
   ],
   "note": "False when all samples have the same size: the table then carries neither a common size nor the sizes (witness)."
  },
  {
   "property": "C34",
   "status": "proved",
   "theorems": [
    "Verif.RangeMap.range_map_total",
    "Verif.RangeMap.range_map_first"
   ],
   "note": ""
  },
  {
   "property": "C54",
   "status": "proved",
   "theorems": [
    "Verif.Tables.stsc_read"
   ],
   "note": ""
  },
  {
   "property": "C55",
   "status": "proved",
   "theorems": [
    "Verif.Tables.stts_read"
   ],
   "note": ""
  },
  {
   "property": "C56",
   "status": "proved",
   "theorems": [
    "Verif.Tables.decoding_sample_read"
   ],
   "note": ""
  },
  {
   "property": "C57",
   "status": "partial",
   "theorems": [
    "Verif.Tables.stss_read",
    "Verif.Tables.stss_roundtrip_partial",
    "Verif.Tables.stss_no_sync_witness"
   ],
   "note": "False for a video stream without any sync sample (witness); proved for every other stream."
  },
  {
   "property": "C58",
   "status": "partial",
   "theorems": [
    "Verif.Tables.ctts_read_partial",
    "Verif.Tables.ctts_first_witness"
   ],
   "note": "False when a later sample is presented before the first one (witness: array underrun); proved for all other tables."
  },
  {
   "property": "C59",
   "status": "partial",
   "theorems": [
    "Verif.Tables.composition_sample_read_partial",
    "Verif.Tables.composition_sample_after_end_witness"
   ],
   "note": "False for times after the last composition time (witness: sample 0); proved for all times from first to last under the C58 condition."
  },
  {
   "property": "C14",
   "status": "proved",
   "theorems": [
    "Verif.Interleave.interleaving_conserves"
   ],
   "note": ""
  },
  {
   "property": "C15",
   "status": "partial",
   "theorems": [
    "Verif.Interleave.end_writes_all_partial",
    "Verif.Interleave.end_loses_samples_witness"
   ],
   "note": "False with several streams: end() does not write what is still queued (witness). Proved for single stream files."
  },
  {
   "property": "C60",
   "status": "proved",
   "theorems": [
    "Verif.Interleave.add_sample_returns"
   ],
   "note": ""
  },
  {
   "property": "C20",
   "status": "proved",
   "theorems": [
    "Verif.Crc.crc_is_mpeg2",
    "Verif.Crc.crc_residue_zero"
   ],
   "note": "all buffers, all alignments"
  },
  {
   "property": "C16",
   "status": "partial",
   "theorems": [
    "Verif.Ts.output_ts_carries_payload_partial",
    "Verif.Ts.output_ts_short_random_access"
   ],
   "note": "False for random access payloads of exactly 181 bytes (175 with PCR): foreign memory is appended and the flag lost (second theorem, for all such payloads). Proved for all other sizes."
  },
  {
   "property": "C17",
   "status": "proved",
   "theorems": [
    "Verif.Ts.continuity",
    "Verif.Ts.fill_completes_cycle"
   ],
   "note": ""
  },
  {
   "property": "C18",
   "status": "proved",
   "theorems": [
    "Verif.Ts.pcr_survives",
    "Verif.Pes.stamps_survive"
   ],
   "note": "times below 2^62; PCR not for the size excluded in C16"
  },
  {
   "property": "C19",
   "status": "partial",
   "theorems": [
    "Verif.Pes.pes_length_right_partial",
    "Verif.Pes.pes_length_witness"
   ],
   "note": "False for bodies just below 65535 bytes, where header plus body overflow the 16 bit field (witness)."
  },
  {
   "property": "C42",
   "status": "proved",
   "theorems": [
    "Verif.TsMux.video_access_unit"
   ],
   "note": ""
  },
  {
   "property": "C61",
   "status": "partial",
   "theorems": [
    "Verif.Ts.tables_describe_streams",
    "Verif.Ts.tables_repeat",
    "Verif.TsMux.mux_tables_partial",
    "Verif.TsMux.mux_tables_ltc_witness"
   ],
   "note": "False at the muxer when a time code stream is added before another stream (witness). Proved for all other orders, and for the table writer itself."
  },
  {
   "property": "C62",
   "status": "partial",
   "theorems": [
    "Verif.TsMux.mux_delivers_partial",
    "Verif.TsMux.mux_short_key_frame_witness"
   ],
   "note": "Excludes key samples whose PES packet has exactly 181 (175) bytes, where it is false (witness)."
  },
  {
   "property": "C63",
   "status": "proved",
   "theorems": [
    "Verif.TsMux.adts_frame"
   ],
   "note": "frames below 8192 bytes, parameters with an MPEG-4 code"
  },
  {
   "property": "C64",
   "status": "proved",
   "theorems": [
    "Verif.TsMux.hls_rebase"
   ],
   "note": ""
  },
  {
   "property": "C21",
   "status": "proved",
   "theorems": [
    "Verif.Cenc.counter8_increments",
    "Verif.Cenc.counter_increments"
   ],
   "note": "The 64 and 128 bit counters as big-endian numbers, for every value (HAVE_LIBGYPAES build)."
  },
  {
   "property": "C22",
   "status": "proved",
   "theorems": [
    "Verif.Cenc.sample_split"
   ],
   "note": "For every sample size, with and without sub-sample encryption."
  },
  {
   "property": "C23",
   "status": "proved",
   "theorems": [
    "Verif.Cenc.decryption_gives_samples"
   ],
   "note": "For every list of samples and every block cipher E (AES itself is library code); a player's decryption is specified byte by byte in Verif.Cenc.Spec."
  },
  {
   "property": "C24",
   "status": "proved",
   "theorems": [
    "Verif.Cenc.counter_blocks_distinct"
   ],
   "note": "No counter block is used twice for one key within a fragment sequence."
  },
  {
   "property": "C46",
   "status": "proved",
   "theorems": [
    "Verif.Fragment.fragment_read_back"
   ],
   "note": "segments below 2^31 bytes; the reader locates the data through the data offset and sizes and finds exactly the media data box"
  },
  {
   "property": "C65",
   "status": "proved",
   "theorems": [
    "Verif.Fragment.fragment_read_back",
    "Verif.Fragment.fragment_times"
   ],
   "note": "The conversion to other time scales than 10 MHz (double arithmetic) is an arbitrary function; fragment_times is the 10 MHz case."
  },
  {
   "property": "C66",
   "status": "partial",
   "theorems": [
    "Verif.Fragment.segment_index_partial",
    "Verif.Fragment.segment_index_late_witness"
   ],
   "note": "True while the presentation time fits 32 bits (429 s at 10 MHz); false for every later fragment (second theorem)."
  },
  {
   "property": "C35",
   "status": "proved",
   "theorems": [
    "Verif.Strings.split_join",
    "Verif.Strings.replace_all",
    "Verif.Strings.Spec.Splits.unique",
    "Verif.Strings.Spec.Replaced.unique",
    "Verif.Strings.split_empty_hangs"
   ],
   "note": "For every non-empty separator; the last theorem shows the call does not return for an empty one."
  },
  {
   "property": "C36",
   "status": "proved",
   "theorems": [
    "Verif.Strings.hex_text",
    "Verif.Strings.hex_extract",
    "Verif.Strings.hex_round_trip",
    "Verif.Strings.hex_extract_lax_witness"
   ],
   "note": "The last theorem shows that text that is not hexadecimal is accepted."
  },
  {
   "property": "C25",
   "status": "proved",
   "theorems": [
    "Verif.HlsCrypt.encrypt_decrypt",
    "Verif.HlsCrypt.encrypt_refuses",
    "Verif.HlsCrypt.file_decrypt"
   ],
   "note": "every invertible block cipher; sequence numbers below 2^31"
  },
  {
   "property": "C67",
   "status": "partial",
   "theorems": [
    "Verif.HlsCrypt.player_iv_partial",
    "Verif.HlsCrypt.player_iv_witness"
   ],
   "note": "False for every segment: the sequence number is incremented before the segment is encrypted, so the first 16 bytes decrypt wrongly (witness, for all contents). Proved: all other bytes are right."
  },
  {
   "property": "C28",
   "status": "proved",
   "theorems": [
    "Verif.Dynamic.points_tile",
    "Verif.Dynamic.points_duration",
    "Verif.Dynamic.points_rebase",
    "Verif.Dynamic.presentation_rebase"
   ],
   "note": ""
  },
  {
   "property": "C29",
   "status": "proved",
   "theorems": [
    "Verif.Dynamic.path_covers",
    "Verif.Dynamic.path_rebase"
   ],
   "note": ""
  },
  {
   "property": "C30",
   "status": "partial",
   "theorems": [
    "Verif.Dynamic.closest_partial",
    "Verif.Dynamic.closest_single_witness"
   ],
   "note": "False for an index with one point (iterator passes the end); proved for two or more."
  },
  {
   "property": "C31",
   "status": "proved",
   "theorems": [
    "Verif.Dynamic.join_in_sync"
   ],
   "note": ""
  },
  {
   "property": "C68",
   "status": "partial",
   "theorems": [
    "Verif.Dynamic.segment_end_partial",
    "Verif.Dynamic.segment_end_cross_witness",
    "Verif.Dynamic.cross_rebase_witness"
   ],
   "note": "False before a segment that lies across two files, and cross points keep their old times after a rebase (witnesses); proved for ordinary points."
  },
  {
   "property": "C69",
   "status": "proved",
   "theorems": [
    "Verif.Dynamic.publish_spacing"
   ],
   "note": ""
  },
  {
   "property": "C26",
   "status": "proved",
   "theorems": [
    "Verif.Render.mpd_read",
    "Verif.Render.mpd_timeline"
   ],
   "note": "The whole manifest is lexed and parsed as XML and read by the DASH rules; non-empty streams, values below 2^63."
  },
  {
   "property": "C27",
   "status": "partial",
   "theorems": [
    "Verif.Render.duration_text_partial",
    "Verif.Render.mpd_duration_partial",
    "Verif.Render.duration_text_witness"
   ],
   "note": "Exact characterisation: right if and only if the duration is a whole number of seconds (the fraction is taken modulo 10^6 instead of 10^7 and not padded)."
  },
  {
   "property": "C44",
   "status": "proved",
   "theorems": [
    "Verif.Clock.time_recompose",
    "Verif.Clock.time_decompose",
    "Verif.Clock.hns_text"
   ],
   "note": ""
  },
  {
   "property": "C70",
   "status": "proved",
   "theorems": [
    "Verif.Render.mpd_addresses"
   ],
   "note": ""
  },
  {
   "property": "C71",
   "status": "partial",
   "theorems": [
    "Verif.Render.mpd_ids_unique_partial",
    "Verif.Render.mpd_ids_witness"
   ],
   "note": "False for an audio stream with two bitrates (witness)."
  },
  {
   "property": "C72",
   "status": "partial",
   "theorems": [
    "Verif.Render.codec_name_partial",
    "Verif.Render.codec_name_witness",
    "Verif.Render.mpd_codecs"
   ],
   "note": "The compatibility flags are printed wrongly, so the name is right if and only if they are 0 (codec_name_partial); the assignment of codecs to representations is right for all presentations."
  },
  {
   "property": "C73",
   "status": "proved",
   "theorems": [
    "Verif.Render.hls_playlist"
   ],
   "note": "one video stream; two video streams are a defect, see C76"
  },
  {
   "property": "C74",
   "status": "partial",
   "theorems": [
    "Verif.Render.hls_target_partial",
    "Verif.Render.hls_target_witness",
    "Verif.Render.hls_end_witness"
   ],
   "note": "False when the first segment is not the longest or is rounded down, and when a stream follows the video stream (witnesses)."
  },
  {
   "property": "C75",
   "status": "partial",
   "theorems": [
    "Verif.Render.hls_files_partial",
    "Verif.Render.hls_files_witness"
   ],
   "note": "The files are always named video_\u2026; false for other stream names (witness)."
  },
  {
   "property": "C76",
   "status": "partial",
   "theorems": [
    "Verif.Render.hls_master",
    "Verif.Render.hls_two_streams_witness"
   ],
   "note": "Proved for one video stream with any number of bitrates; false for two (witness)."
  },
  {
   "property": "C77",
   "status": "proved",
   "theorems": [
    "Verif.Render.smooth_read",
    "Verif.Render.smooth_addresses"
   ],
   "note": ""
  },
  {
   "property": "C78",
   "status": "proved",
   "theorems": [
    "Verif.Render.smooth_codec_data"
   ],
   "note": "sequence parameter sets below 65536 bytes"
  },
  {
   "property": "C79",
   "status": "partial",
   "theorems": [
    "Verif.Render.smooth_levels_partial",
    "Verif.Render.smooth_count_wrong"
   ],
   "note": "Quality level counts are right; the chunk count is one too many in every stream (smooth_count_wrong)."
  },
  {
   "property": "C32",
   "status": "proved",
   "theorems": [
    "Verif.Queue.fixed_fifo"
   ],
   "note": "Both modes; a refused push in drop mode empties the queue (the specification says so)."
  },
  {
   "property": "C33",
   "status": "proved",
   "theorems": [
    "Verif.Queue.grow_unbounded"
   ],
   "note": "Contents under 512 MB and every allocation succeeds."
  },
  {
   "property": "C37",
   "status": "partial",
   "theorems": [
    "Verif.Resource.release_once_partial",
    "Verif.Resource.assign_takes_value_partial",
    "Verif.Resource.self_assign_faults",
    "Verif.Resource.advance_faults"
   ],
   "note": "Proved for programs whose assignments keep the right hand side alive; self assignment of the only handle and h = h->next use deleted memory (witnesses)."
  },
  {
   "property": "C40",
   "status": "partial",
   "theorems": [
    "Verif.H264.nal_roundtrip_partial",
    "Verif.H264.nal_loses_last_three",
    "Verif.H264.nal_in_place"
   ],
   "note": "False for every payload that ends in the byte 3, which is removed (nal_loses_last_three); proved for all others; decoding in place gives the same bytes for every unit."
  },
  {
   "property": "C41",
   "status": "partial",
   "theorems": [
    "Verif.H264.ue_read_partial",
    "Verif.H264.se_read_partial",
    "Verif.H264.ue_witness",
    "Verif.H264.se_witness"
   ],
   "note": "Unsigned codes below 2^31 - 1 and signed ones up to 2^23 (the code goes through int and float); witnesses outside."
  },
  {
   "property": "C80",
   "status": "partial",
   "theorems": [
    "Verif.H264.sps_read_partial",
    "Verif.H264.sps_last",
    "Verif.H264.sps_ending_in_three",
    "Verif.H264.sps_profile_44"
   ],
   "note": "Proved for every parameter set without scaling matrix with codes in the range of C41; false for the profiles 44, 83 and 86 and for payloads that end in a byte 3 (witnesses); scaling matrices are not decoded."
  },
  {
   "property": "C81",
   "status": "partial",
   "theorems": [
    "Verif.H264.avcc_written_partial",
    "Verif.H264.avcc_reread_partial",
    "Verif.H264.avcc_read_partial",
    "Verif.H264.avcc_two_sets",
    "Verif.H264.avcc_overrun",
    "Verif.H264.compatibility_witness",
    "Verif.H264.extension_witness"
   ],
   "note": "The profile compatibility is written as 0 or 1, the extension of the high profiles is missing, several sequence parameter sets overwrite each other and more than 256 bytes overrun the array (witnesses); everything else is right for all parameter sets."
  },
  {
   "property": "C82",
   "status": "partial",
   "theorems": [
    "Verif.H264.size_partial",
    "Verif.H264.size_found",
    "Verif.H264.size_witness",
    "Verif.H264.size_interlaced_witness"
   ],
   "note": "Cropping and interlacing are ignored (size_found says exactly what is found)."
  },
  {
   "property": "C39",
   "status": "partial",
   "theorems": [
    "Verif.Event.wakeup_partial",
    "Verif.Event.wait_after_signal",
    "Verif.Event.lost_wakeup",
    "Verif.Event.one_waiter_only",
    "Verif.Event.wait_without_signal"
   ],
   "note": "The flag is read and written without the mutex: a signal between the look at the flag and the sleep is lost, of several waiting threads one wakes, and a spurious wake up returns (witnesses). Proved: a wait that begins after signal() returned never sleeps; one waiting thread whose window signal() does not hit is woken."
  },
  {
   "property": "C83",
   "status": "proved",
   "theorems": [
    "Verif.Event.timed_true_sound",
    "Verif.Event.timed_after_signal",
    "Verif.Event.reset_clears"
   ],
   "note": "All executions; single steps of the flag are taken to be atomic. timed_busy shows that a poll which overlaps the signal can return false early."
  },
  {
   "property": "C38",
   "status": "partial",
   "theorems": [
    "Verif.Promise.calls_partial",
    "Verif.Promise.order_irrelevant_partial",
    "Verif.Promise.no_result_no_call",
    "Verif.Promise.late_forward",
    "Verif.Promise.null_lost",
    "Verif.Promise.error_twice",
    "Verif.Promise.throwing_order"
   ],
   "note": "Proved for any chain and any interleaving of attaching with the result when error handlers do not throw and the value is not null. False for a null value, for promises forwarded after the value came, for a second error handler and for error handlers that throw, as the default one does (witnesses)."
  },
  {
   "property": "C84",
   "status": "partial",
   "theorems": [
    "Verif.FileAsync.answered_once",
    "Verif.FileAsync.reads_in_order",
    "Verif.FileAsync.mixed_out_of_order",
    "Verif.FileAsync.failure_lost",
    "Verif.FileAsync.wrong_failure"
   ],
   "note": "Exactly once and termination for all kinds of requests, order for reads only; reads mixed with writes are answered out of order, and the failure of an early completed read is lost or given to another (witnesses)."
  },
  {
   "property": "C85",
   "status": "proved",
   "theorems": [
    "Verif.FileAsync.reads_are_the_file"
   ],
   "note": "Reads that succeed, on a file that is not changed meanwhile."
  },
  {
   "property": "C86",
   "status": "partial",
   "theorems": [
    "Verif.FileAsync.writes_are_the_file",
    "Verif.FileAsync.writes_any_order",
    "Verif.FileAsync.rewrite_lost"
   ],
   "note": "Proved for writes that touch different bytes, in particular for a file written from start to end; bytes that are written again while the first write is under way can keep the old contents (witness). Short writes are not modelled."
  },
  {
   "property": "C47",
   "status": "partial",
   "theorems": [
    "Verif.FileAsync.copy_all",
    "Verif.FileAsync.copy_exact",
    "Verif.FileAsync.copy_partial",
    "Verif.FileAsync.copy_overshoots"
   ],
   "note": "For asynchronous files, every schedule. Without an end position the source is copied exactly; with one the number of bytes is rounded up to whole chunks (copy_exact), so that more than asked for is copied (copy_overshoots)."
  },
  {
   "property": "C43",
   "status": "partial",
   "theorems": [
    "Verif.Esds.length_read",
    "Verif.Esds.length_roundtrip_partial",
    "Verif.Esds.length_witness"
   ],
   "note": "Lengths below 2^28 (2^28 is written as 0, length_witness); every form of a length below 2^31 is read."
  },
  {
   "property": "C87",
   "status": "partial",
   "theorems": [
    "Verif.Esds.esds_written_partial",
    "Verif.Esds.esds_roundtrip_partial"
   ],
   "note": "Object types 1 and 2; for others the writer calls skipbits, which is not modelled."
  },
  {
   "property": "C88",
   "status": "partial",
   "theorems": [
    "Verif.Esds.esds_read_partial",
    "Verif.Esds.no_info_witness",
    "Verif.Esds.explicit_frequency_witness",
    "Verif.Esds.escape_witness"
   ],
   "note": "Proved for object types below 31 with an indexed frequency and one decoder specific descriptor. False without decoder specific information (a pointer that was never set is used), for an explicit sampling frequency and for object types of 32 and more (witnesses)."
  },
  {
   "property": "C89",
   "status": "partial",
   "theorems": [
    "Verif.Esds.private_data_partial",
    "Verif.Esds.private_data_witness",
    "Verif.Esds.private_data_sbr_witness"
   ],
   "note": "Only object type, rate and channels are kept: frames of 960 become frames of 1024 and extensions are dropped (witnesses)."
  },
  {
   "property": "C90",
   "status": "proved",
   "theorems": [
    "Verif.Reader.file_read_complete",
    "Verif.Reader.file_read_in_order",
    "Verif.Reader.file_read_cut_witness"
   ],
   "note": "For files whose samples lie inside the media data box (otherwise samples are dropped, witness)."
  },
  {
   "property": "C45",
   "status": "partial",
   "theorems": [
    "Verif.Reader.fragment_audio",
    "Verif.Reader.fragments_partition_audio",
    "Verif.Reader.fragment_video_partial",
    "Verif.Reader.fragments_partition_video_partial",
    "Verif.Reader.fragment_open_gop_witness",
    "Verif.Reader.fragment_close_sync_witness",
    "Verif.Reader.fragment_offset_witness"
   ],
   "note": "Proved for every track without composition offsets and sync table at all times; for video at beginnings of closed groups. False for open groups (leading pictures lost), sync samples closer than the composition delay, and video with an edit list (witnesses)."
  },
  {
   "property": "C91",
   "status": "partial",
   "theorems": [
    "Verif.Reader.move_at_or_before_sync",
    "Verif.Reader.move_rounding_witness"
   ],
   "note": "Exact when the time scale divides 10 MHz; otherwise at or before (rounding, witness)."
  },
  {
   "property": "C92",
   "status": "partial",
   "theorems": [
    "Verif.Reader.base_time_set",
    "Verif.Reader.base_time_partial",
    "Verif.Reader.base_time_witness"
   ],
   "note": "Holds when the fragment starts at the presentation time of its first sample; otherwise off by the distance (witness)."
  },
  {
   "property": "C53",
   "status": "partial",
   "theorems": [
    "Verif.FileReader.file_prefix_partial",
    "Verif.FileReader.file_read_partial",
    "Verif.FileReader.file_fields_partial",
    "Verif.FileReader.last_bytes_witness"
   ],
   "note": "Proved for every schedule for calls that end 8 bytes (fields: 4 bytes) before the end of the file; in the last bytes wrong data is given when a field lies across two buffers (witness), because the rest of the shadow buffer is taken from its start."
  },
  {
   "property": "C93",
   "status": "partial",
   "theorems": [
    "Verif.FileReader.whole_file",
    "Verif.FileReader.pages_partial",
    "Verif.FileReader.early_end_witness",
    "Verif.FileReader.zero_padding_witness",
    "Verif.FileReader.read_leaves_few"
   ],
   "note": "Proved when answers come in time, for reading the whole file and for fields that do not lie across buffers. False when the last answer is late (eof() looks at the position already asked for), for fields across the end (filled with zeros) and for reads that leave 1 to 3 bytes (end of data raised) (witnesses)."
  },
  {
   "property": "C94",
   "status": "partial",
   "theorems": [
    "Verif.FileReader.moves_partial",
    "Verif.FileReader.seek_rest_partial",
    "Verif.FileReader.far_seek_witness",
    "Verif.FileReader.unaligned_seek_witness",
    "Verif.FileReader.late_seek_witness",
    "Verif.FileReader.past_end_witness",
    "Verif.FileReader.long_skip_witness",
    "Verif.FileReader.late_skip_witness"
   ],
   "note": "Proved when the answers come in time, 8 bytes before the end (the rest of the file can be read after any set_position). False for synchronous files of 4 GB and more, for set_position after a field that ends inside a byte, past the end, for skips longer than both buffers (twice as far), and for asynchronous files whose answer is late (wrong place or time out) (witnesses)."
  },
  {
   "property": "C95",
   "status": "partial",
   "theorems": [
    "Verif.Demux.nal_units_recovered_partial",
    "Verif.Demux.nal_padding_witness",
    "Verif.Demux.nal_no_start_code_witness"
   ],
   "note": "Proved for start codes of 3 and 4 bytes and NAL units without trailing zeros. False with more zero bytes before a start code (they become part of the unit before) and for data without start code (witnesses)."
  },
  {
   "property": "C96",
   "status": "partial",
   "theorems": [
    "Verif.Demux.adts_frames_recovered_partial",
    "Verif.Demux.adts_short_frame_witness",
    "Verif.Demux.adts_data_from_payload"
   ],
   "note": "Proved for frames with data of which the last has at least nine bytes; shorter last frames are dropped with a message (witness)."
  },
  {
   "property": "C97",
   "status": "partial",
   "theorems": [
    "Verif.Demux.frame_times_exact_partial",
    "Verif.Demux.frame_times_drift",
    "Verif.Demux.frame_times_witness"
   ],
   "note": "Exact when the frequency divides 10 MHz; otherwise early by up to a stated drift per frame, because the division is done before the multiplication (witness)."
  },
  {
   "property": "C98",
   "status": "partial",
   "theorems": [
    "Verif.Demux.access_unit_to_sample",
    "Verif.Demux.remuxed_samples",
    "Verif.Demux.parameter_change_witness"
   ],
   "note": "Parameter sets that change during the stream are lost (witness)."
  },
  {
   "property": "C99",
   "status": "partial",
   "theorems": [
    "Verif.Demux.packet_read_partial",
    "Verif.Demux.stream_read_partial",
    "Verif.Demux.packet_progress",
    "Verif.Demux.packets_end",
    "Verif.Demux.private_data_witness",
    "Verif.Demux.error_packet_witness"
   ],
   "note": "Proved without private data and extension in adaptation fields; private data shifts the payload and packets marked as erroneous are not handled as such (witnesses). Progress and end proved for every file."
  },
  {
   "property": "C100",
   "status": "partial",
   "theorems": [
    "Verif.Demux.pes_header_read_partial",
    "Verif.Demux.pes_header_witness"
   ],
   "note": "Proved for headers without CRC and reserved trick modes (witness)."
  },
  {
   "property": "C101",
   "status": "partial",
   "theorems": [
    "Verif.Demux.pes_delivered_partial",
    "Verif.Demux.pes_flags_partial",
    "Verif.Demux.unbounded_witness",
    "Verif.Demux.short_audio_witness"
   ],
   "note": "Proved for all PES packets but a last one without length, which is only handed on by End(), which nobody calls; indicators proved for packets with length; without length that of the first is reported for all; short audio packets at the beginning are dropped (witnesses)."
  },
  {
   "property": "C102",
   "status": "partial",
   "theorems": [
    "Verif.Demux.mux_demux_partial",
    "Verif.Demux.mux_demux_video_partial",
    "Verif.Demux.mux_demux_audio_partial",
    "Verif.Psi.file_round_partial",
    "Verif.Psi.many_streams_witness"
   ],
   "note": "Proved for all interleavings, per stream and for whole files read from their bytes with tables (up to 33 streams; 34 cannot be read, witness), for samples whose PES packet does not run into the defects of C19 and C62 (sizes) and whose stream is recognised; the last sample needs End() when it is bigger than 64 KB. Audio: first frame of at least nine bytes, others two."
  },
  {
   "property": "C103",
   "status": "partial",
   "theorems": [
    "Verif.Psi.tables_read_partial",
    "Verif.Psi.table_after_others",
    "Verif.Psi.psi_boundary_witness",
    "Verif.Psi.psi_empty_witness",
    "Verif.Psi.psi_sections_witness",
    "Verif.Psi.psi_network_witness",
    "Verif.Psi.psi_next_witness",
    "Verif.Psi.psi_crc_witness",
    "Verif.Psi.many_streams_witness"
   ],
   "note": "Proved for tables of one section, any descriptors and any number of packets, when no packet boundary lies in the last bytes of the section and the first packet of a pid starts a table. False when the section ends within four bytes behind a packet (reading the file fails, also for files the program wrote itself with 34 streams), for packets without payload, for tables of several sections, for the network pid, and for tables announced for later; damaged tables are used (witnesses). A map that changes later is not noticed."
  },
  {
   "property": "C104",
   "status": "partial",
   "theorems": [
    "Verif.Psi.streams_delivered_partial"
   ],
   "note": "Proved for one program map; packets of further programs must not be in the part considered. When a receiver fails reading ends."
  },
  {
   "property": "C105",
   "status": "partial",
   "theorems": [
    "Verif.Moof.fragments_delivered_partial",
    "Verif.Moof.fragments_round_trip_partial",
    "Verif.Moof.any_fragments_partial",
    "Verif.Moof.unsigned_offset",
    "Verif.Moof.earlier_run_is_lost",
    "Verif.Moof.earlier_track_is_lost",
    "Verif.Moof.no_base_time",
    "Verif.Moof.base_time_of_the_fragment_before",
    "Verif.Moof.long_duration_is_negative",
    "Verif.Moof.movie_defaults_are_not_read",
    "Verif.Moof.user_box_content_is_read",
    "Verif.Moof.large_data_box",
    "Verif.Moof.free_box_of_size_zero",
    "Verif.Moof.strict_parse_refuses",
    "Verif.Moof.clear_after_encrypted"
   ],
   "note": "Proved for all files of fragments this program writes (with base time, durations below 2^31), and for fragments of any program with one track fragment and one run (any flags, versions, optional fields, sub-samples, other boxes between; any_fragments_partial), unless a clear fragment follows an encrypted one (it is decrypted, witness). Otherwise false: of several runs or tracks only the last is read, base times and defaults are taken from earlier fragments, user defined boxes are read as boxes, 64 bit sizes lose the place, a free box of size 0 is never left (witnesses); the strict mode refuses every segment the program writes (strict_parse_refuses)."
  },
  {
   "property": "C106",
   "status": "proved",
   "theorems": [
    "Verif.Moof.decrypt_standard"
   ],
   "note": "With sub-samples that make up the sample, as the standard demands; AES abstract."
  },
  {
   "property": "C107",
   "status": "partial",
   "theorems": [
    "Verif.Cmdline.values_partial",
    "Verif.Cmdline.mg_declared",
    "Verif.Cmdline.line_good",
    "Verif.Cmdline.value_with_colon_lost",
    "Verif.Cmdline.switch_by_shortcut",
    "Verif.Cmdline.help_shortcut",
    "Verif.Cmdline.dash_help",
    "Verif.Cmdline.unknown_has_shortcut"
   ],
   "note": "Proved for every table and every line in which no name contains ':' or '=', no value behind '=' contains ':', no shortcut belongs to two commands or is 0, and no switch is given by its shortcut alone. Otherwise false: a value behind '=' with ':' in it is torn apart, '-v' is not '-validate', '-h' is never help, '-0' goes to an unknown parameter (witnesses)."
  },
  {
   "property": "C108",
   "status": "proved",
   "theorems": [
    "Verif.Cmdline.required_checked",
    "Verif.Cmdline.required_partial"
   ],
   "note": "For every command line; process also never fails. required_partial says the same in terms of what is on the line (for the lines of C107)."
  },
  {
   "property": "C109",
   "status": "partial",
   "theorems": [
    "Verif.Cmdline.integer_value_partial",
    "Verif.Cmdline.toInt64_spec",
    "Verif.Cmdline.toBool_spec",
    "Verif.Cmdline.number_surprises",
    "Verif.Cmdline.switch_is_false"
   ],
   "note": "toInt64_spec is complete: the number a text begins with, clamped to 64 bits, and an exception if there is none. Partial because get_integer_value drops the high half of larger numbers, what follows the digits is ignored, and a switch that was given (T) is not true (witnesses)."
  },
  {
   "property": "C110",
   "status": "partial",
   "theorems": [
    "Verif.Edit.samples_of_part",
    "Verif.Edit.whole_file_partial",
    "Verif.Edit.short_file_refused_witness",
    "Verif.Edit.first_audio_lost_witness"
   ],
   "note": "samples_of_part holds for every file that is accepted and every range, from the position `move` goes to (C91); whole files: proved when no track begins before the first picture is presented. False for whole files whose video has a composition delay (the first audio frames are lost) and for files with few samples behind the start (refused) (witnesses)."
  },
  {
   "property": "C111",
   "status": "partial",
   "theorems": [
    "Verif.Edit.files_follow_partial",
    "Verif.Edit.decoded_after_presented_witness",
    "Verif.Edit.leading_picture_witness",
    "Verif.Edit.end_forgotten_witness"
   ],
   "note": "Proved for every list of files and ranges in which the first sample of every stream of a part is presented first and every stream has two different times in the part. Otherwise false: a leading picture found late gets a time below 0, a stream without sample in a part forgets its end (overlap); presentation and decoding times move by different amounts, so that samples with composition offsets are decoded after they are presented (witnesses)."
  },
  {
   "property": "C112",
   "status": "partial",
   "theorems": [
    "Verif.Edit.joined_files_fit_partial",
    "Verif.Edit.longer_pps_accepted_witness",
    "Verif.Edit.unusable_stream_first_witness"
   ],
   "note": "Proved but for picture parameter sets, of which only the beginning is compared; a file in which a stream that cannot be used comes before others is always refused (witnesses)."
  },
  {
   "property": "C113",
   "status": "partial",
   "theorems": [
    "Verif.Level.auto_decoding",
    "Verif.Level.auto_no_offset",
    "Verif.Level.auto_span",
    "Verif.Level.auto_regular",
    "Verif.Level.auto_repeated_witness",
    "Verif.Level.auto_duplicate_witness"
   ],
   "note": "auto_decoding holds for every stream: order kept, times never decrease and increase for every sample but one presented first of all, offset sufficient and smallest. Span and constant frame rate: proved for different presentation times. Otherwise false: a first presented sample that is not coded first repeats a decoding time; equal presentation times make the decoding run longer than the presentation (witnesses)."
  },
  {
   "property": "C114",
   "status": "partial",
   "theorems": [
    "Verif.Level.level_shown",
    "Verif.Level.level_sync_partial",
    "Verif.Level.finish_sync_partial",
    "Verif.Level.track_read",
    "Verif.Level.movie_read_partial",
    "Verif.Level.early_decoding_witness",
    "Verif.Level.leading_picture_witness",
    "Verif.Level.empty_movie_witness",
    "Verif.Level.empty_stream_witness",
    "Verif.Level.delay_truncated_witness"
   ],
   "note": "level_shown says for every movie by how much each stream is delayed; it is the same for all when no stream begins decoding before the stream that is presented first, in particular (finish_sync_partial) when in each stream the first sample is presented first or decoded when presented. movie_read_partial carries this through the tables to the times the reader gives, with all rounding; the floating point conversions are any functions that round down and lose less than e ticks. Otherwise streams get out of step (witnesses); delays are cut to milliseconds."
  },
  {
   "property": "C115",
   "status": "partial",
   "theorems": [
    "Verif.LoopThread.served_or_open",
    "Verif.LoopThread.request_served",
    "Verif.LoopThread.end_returns",
    "Verif.LoopThread.end_serves_all_partial",
    "Verif.LoopThread.end_throws_iff",
    "Verif.LoopThread.nothing_served_after_exception",
    "Verif.LoopThread.request_lost_witness",
    "Verif.LoopThread.destructor_terminates_witness"
   ],
   "note": "For every schedule: no callback is called twice or without request, an open request is served within a bounded number of steps of the loop thread, end returns, and the exception thrown is that of the last callback. All requests are served before end returns, unless end is called just between the return of the loop and the check of the exit flag (a request is then lost silently, witness) or a callback throws (nothing is served any more; in the destructor the exception ends the program, witness)."
  },
  {
   "property": "C116",
   "status": "partial",
   "theorems": [
    "Verif.Edit.segment_holds_window_partial",
    "Verif.Edit.segments_partition_partial",
    "Verif.Edit.open_group_refused_witness",
    "Verif.Edit.edit_list_lost_witness",
    "Verif.Edit.last_segment_refused_witness"
   ],
   "note": "Proved for every file and every list of beginnings of closed groups of pictures, all streams at once (audio without any restriction). Otherwise false: open groups are refused, with an edit list pictures are lost, a last segment with few samples is refused (witnesses)."
  },
  {
   "property": "C117",
   "status": "partial",
   "theorems": [
    "Verif.Edit.segment_times_partial",
    "Verif.Edit.segments_one_timeline_partial",
    "Verif.Edit.segment_jump_witness"
   ],
   "note": "Proved when the first sample stored in each segment is presented at its start; when another stream's sample is stored first all times of the segment are off by its distance (witness)."
  },
  {
   "property": "C118",
   "status": "partial",
   "theorems": [
    "Verif.Drm.playready_object_partial",
    "Verif.Drm.playready_object_linux_witness",
    "Verif.Drm.playready_long_header_witness"
   ],
   "note": "Proved where wchar_t has two bytes (Windows) and the header has fewer than 32768 characters. On Linux (four bytes) no object at all is right: the lengths count four bytes for each character, two are written; the record length has 16 bits (witnesses for all headers)."
  },
  {
   "property": "C119",
   "status": "partial",
   "theorems": [
    "Verif.Drm.kid_layout",
    "Verif.Drm.playready_header_partial",
    "Verif.Drm.playready_url_not_escaped_witness"
   ],
   "note": "Proved for addresses without '<'; AES abstract. The address is not escaped: with '&' in it the header is not well-formed (witness)."
  },
  {
   "property": "C120",
   "status": "proved",
   "theorems": [
    "Verif.Drm.playready_manifest",
    "Verif.Drm.clearkey_manifest",
    "Verif.Drm.widevine_manifest",
    "Verif.Drm.pssh_boxes_parse"
   ],
   "note": "For every key id of 16 bytes and bodies below 2^31 bytes."
  },
  {
   "property": "C121",
   "status": "partial",
   "theorems": [
    "Verif.Drm.pssh_copy_partial",
    "Verif.Drm.pssh_kids_lost_witness"
   ],
   "note": "Proved for boxes with at most one key id; of several only the last is kept (witness, for every list)."
  },
  {
   "property": "C122",
   "status": "partial",
   "theorems": [
    "Verif.Drm.dump_playready_partial",
    "Verif.Drm.dump_linux_reads_outside_witness",
    "Verif.Drm.dump_own_linux_witness",
    "Verif.Drm.dump_second_record_witness"
   ],
   "note": "Proved where wchar_t has two bytes for objects of one record. On Linux the tool reads outside of the data for every object with a header record; the text of a second record is taken from the wrong place (witnesses)."
  },
  {
   "property": "C123",
   "status": "partial",
   "theorems": [
    "Verif.Drm.json_key_partial",
    "Verif.Drm.json_key_padding_witness"
   ],
   "note": "The values are the standard Base64 texts of key id and key; always with padding and with '+' and '/', which the standard does not allow (witness)."
  },
  {
   "property": "C124",
   "status": "partial",
   "theorems": [
    "Verif.Dash.segment_holds_samples_partial",
    "Verif.Dash.segment_all"
   ],
   "note": "Proved for audio cut anywhere and for video cut at the beginnings of closed groups of pictures without edit list, encrypted or not, from sample tables to the bytes of the finished segment. Open groups and edit lists: see C45 (the reader itself loses samples)."
  },
  {
   "property": "C125",
   "status": "partial",
   "theorems": [
    "Verif.Dash.segment_times_partial",
    "Verif.Dash.segment_times_witness"
   ],
   "note": "Proved for the 10 MHz time scale the program uses: first sample exact, the k-th sample early by at most k ticks of 100 ns (exact if 10 MHz is a multiple of the time scale of the source). The rounding error is real and accumulates inside the segment (witness at 30000/1001)."
  },
  {
   "property": "C126",
   "status": "partial",
   "theorems": [
    "Verif.Dash.stream_segments_complete_partial",
    "Verif.Dash.cross_segment_partial"
   ],
   "note": "Under the conditions of C124; the first part of a cross segment must not be empty."
  },
  {
   "property": "C127",
   "status": "partial",
   "theorems": [
    "Verif.Movie.movie_round_trip_partial",
    "Verif.Movie.movie_times_partial",
    "Verif.Movie.Sample.equal_sizes_witness",
    "Verif.Movie.Sample.no_key_frame_witness",
    "Verif.Movie.Sample.one_sample_witness"
   ],
   "note": "Proved from add_sample (module Interleave) over the tables (module Tables) to the bytes of the file and back through an independent strict reader, for every history; each stream needs two samples of different size, a video stream a key frame, the file fewer than 4 GB. Otherwise false: with samples of one size the size table is empty, a single sample has two durations, without key frames all are taken for key frames (witnesses). Samples still queued when the file is ended are not in it (C62)."
  },
  {
   "property": "C128",
   "status": "partial",
   "theorems": [
    "Verif.Movie.movie_parameters_partial",
    "Verif.Movie.movie_edits_partial",
    "Verif.Movie.Sample.sample_rate_witness"
   ],
   "note": "Proved for every number of streams whose numbers fit their fields. Sample rates from 65536 on do not: 96000 is read as 30464 (witness)."
  },
  {
   "property": "C129",
   "status": "partial",
   "theorems": [
    "Verif.Movie.movie_durations_partial",
    "Verif.Movie.Sample.duration_witness",
    "Verif.Movie.Sample.movie_duration_witness",
    "Verif.Movie.Sample.duration_underflow_witness"
   ],
   "note": "What the headers say is proved for every movie: from the first to the last composition time. The property is false: the last sample is left out; with reordering the last sample in the file is not the last shown, the difference can be negative (a huge number); the movie header has the shortest stream instead of the longest (witnesses)."
  },
  {
   "property": "C130",
   "status": "partial",
   "theorems": [
    "Verif.Movie.init_round_trip_partial",
    "Verif.Movie.init_duration_witness"
   ],
   "note": "Proved for every kind of stream; the duration has 32 bits (witness: ten minutes at 10 MHz read as less than three)."
  },
  {
   "property": "C131",
   "status": "proved",
   "theorems": [
    "Verif.TimeCode.word_round_trip",
    "Verif.TimeCode.word_back",
    "Verif.TimeCode.add_total",
    "Verif.TimeCode.ofTime_total",
    "Verif.TimeCode.sumHnano_total",
    "Verif.TimeCode.inc_total",
    "Verif.TimeCode.proper_ext"
   ],
   "note": "Words of digits below 100 for each field; sums for fields below 2^30."
  },
  {
   "property": "C132",
   "status": "partial",
   "theorems": [
    "Verif.TimeCode.sub32_partial",
    "Verif.TimeCode.sub64_partial",
    "Verif.TimeCode.sub64_wrong",
    "Verif.TimeCode.sub64_witness",
    "Verif.TimeCode.sub_sixty_witness",
    "Verif.TimeCode.sub_midnight_witness"
   ],
   "note": "On Linux (64 bit long) right only when no field borrows; with a borrow the field is always wrong (sub64_wrong). On Windows right but when the minute or second field borrows 60 from 59 and across midnight (witnesses)."
  },
  {
   "property": "C133",
   "status": "partial",
   "theorems": [
    "Verif.TimeCode.thinned_partial",
    "Verif.TimeCode.timecode_found_partial",
    "Verif.TimeCode.middle_run_witness",
    "Verif.TimeCode.zero_start_witness",
    "Verif.TimeCode.first_flag_witness",
    "Verif.TimeCode.thirty_witness"
   ],
   "note": "Proved for 25 frames per second and steps of whole milliseconds, any number of breaks: exactly the first sample of each run is stored (unless the stream begins with 00:00:00:00 at 0: then nothing is, witness), and the answers are right in the first and the last run and at the first frame of every run. In the runs between the code is computed backwards from the next run and is wrong (witness); other frame rates are counted as 25 (witness)."
  },
  {
   "property": "C134",
   "status": "proved",
   "theorems": [
    "Verif.TimeCode.word_read",
    "Verif.TimeCode.words_found"
   ],
   "note": "Registers of 32 and of 64 bits; time codes below 24:00:00:00 with up to 30 frames."
  },
  {
   "property": "C135",
   "status": "proved",
   "theorems": [
    "Verif.TimeCode.biphase_in_step",
    "Verif.TimeCode.biphase_read"
   ],
   "note": ""
  },
  {
   "property": "C136",
   "status": "partial",
   "theorems": [
    "Verif.Parse.movie_opens_partial",
    "Verif.Parse.readable_met",
    "Verif.Parse.movie_first_witness"
   ],
   "note": "Proved for every history of C127 (a stream needs two sizes of samples, video a key frame, file below 4 GB), with no sample presented before the first of its stream: otherwise the reader crashes on the file of the writer (witness). Whether avcC and esds contents are accepted is a parameter."
  },
  {
   "property": "C137",
   "status": "partial",
   "theorems": [
    "Verif.Parse.movie_reads_back_partial",
    "Verif.Parse.readable_met",
    "Verif.Parse.movie_first_witness"
   ],
   "note": "Under the conditions of C136: from the calls of add_sample to the samples delivered by next_file_chunks, through the bytes of the file."
  },
  {
   "property": "C138",
   "status": "partial",
   "theorems": [
    "Verif.Parse.decided_within_length",
    "Verif.Parse.opening_ends_partial",
    "Verif.Parse.small_fits",
    "Verif.Parse.movie_opens_partial",
    "Verif.Parse.size_zero_witness",
    "Verif.Parse.cut_track_witness"
   ],
   "note": "For every sequence of bytes: what has not ended after as many steps as the file has bytes, and one, never ends. Proved that it ends, with the file opened or an exception, for every file whose mdat and free boxes end behind their begin and whose trak, minf and sample entry boxes end in the file, whatever else is in it, and for the files of the writer. False in general: an mdat or free box of size 0 (in the format: up to the end of the file) and a file cut off behind the header of a box in a track are read for ever (witnesses, for every content behind the box and every size)."
  },
  {
   "property": "C139",
   "status": "partial",
   "theorems": [
    "Verif.Parse.unknown_skipped",
    "Verif.Parse.long_size_witness"
   ],
   "note": "Proved for every box with a 32 bit size; with a 64 bit size the first eight bytes of the next box are lost, always (witness)."
  },
  {
   "property": "C140",
   "status": "partial",
   "theorems": [
    "Verif.AudioFix.fixed_steps_partial",
    "Verif.AudioFix.muxed_increase_partial",
    "Verif.AudioFix.fixed_mark_witness"
   ],
   "note": "Proved for every sequence of times (exact arithmetic in place of double), except when a corrected time is exactly 214.7483647 s, which is the mark for no frame (witness)."
  },
  {
   "property": "C141",
   "status": "partial",
   "theorems": [
    "Verif.AudioFix.jitter_removed_partial",
    "Verif.AudioFix.muxed_regular_partial"
   ],
   "note": "Proved for every stream with frames of 1024 samples, with the exception of C140."
  },
  {
   "property": "C142",
   "status": "partial",
   "theorems": [
    "Verif.AudioFix.not_early_partial",
    "Verif.AudioFix.behind_witness",
    "Verif.AudioFix.long_frames_witness",
    "Verif.AudioFix.late_stays",
    "Verif.AudioFix.hole_witness"
   ],
   "note": "Never earlier than the time given by more than 1025 samples, for every sequence. Later: without limit when times stand still (witness, every length); after a hole of one second 6 ms for ever (witness, every length); with frames of 2048 samples every second frame is moved by 1023 samples (witness, every length and rate)."
  },
  {
   "property": "C143",
   "status": "partial",
   "theorems": [
    "Verif.Publish.audio_points_partial",
    "Verif.Publish.ex_used_from"
   ],
   "note": "Proved for any number of files with one stream each without composition offsets, used from a sample that is found (C144) to the end, each for at least two segments. Shorter files and several streams: C145."
  },
  {
   "property": "C144",
   "status": "partial",
   "theorems": [
    "Verif.Publish.audio_points_partial",
    "Verif.Publish.behind_start_endless",
    "Verif.Publish.late_start_endless",
    "Verif.Publish.near_start_endless",
    "Verif.Publish.second_start_endless",
    "Verif.Publish.rounded_start_witness",
    "Verif.Publish.short_segment_endless",
    "Verif.Publish.publish_thrown_witness"
   ],
   "note": "Ends under the conditions of C143. False in general: a start behind the last audio sample, between the first two samples or less than one unit of the media behind any sample, and a fragment length below one sample, are searched for ever; no duration, or a file too short to fill a segment begun before it, throws."
  },
  {
   "property": "C145",
   "status": "partial",
   "theorems": [
    "Verif.Publish.audio_points_partial",
    "Verif.Publish.short_file_witness",
    "Verif.Publish.two_streams_witness"
   ],
   "note": "True under the conditions of C143. False otherwise: the rest of a short file is published as a full segment and its samples are dropped from the next; the second stream of a file takes over the rest of the first one (witnesses)."
  },
  {
   "property": "C146",
   "status": "partial",
   "theorems": [
    "Verif.Publish.audio_published_partial",
    "Verif.Publish.tail_lost",
    "Verif.Publish.written_neighbours",
    "Verif.Publish.ex_item_used",
    "Verif.Publish.ex_request_good"
   ],
   "note": "False: a segment is written from each point to the next, so nothing is written from the last point on. Proved for every audio stream (from the search for points to the bytes of the segments): all samples but the last full segment and the rest, at least one segment of samples is lost; for every stream: exactly what is presented before the last point."
  },
  {
   "property": "C147",
   "status": "proved",
   "theorems": [
    "Verif.Gop.key_frames_published",
    "Verif.Gop.ex_even",
    "Verif.Gop.swapped_witness"
   ],
   "note": "For every track whose key frames are presented one after the other (otherwise the walk ends at the first that goes back, witness), all times below 2^64 / time scale."
  },
  {
   "property": "C148",
   "status": "partial",
   "theorems": [
    "Verif.Gop.gop_list_partial",
    "Verif.Gop.ex_even",
    "Verif.Gop.gop_rounding_witness",
    "Verif.Gop.gop_reorder_witness"
   ],
   "note": "Proved for time scales that divide 10 MHz and key frames presented before the next is decoded; the last key frame is listed twice. False otherwise: at 30000/1001 the list ends at the second key frame, with short groups and composition offsets key frames are left out and numbers are wrong (witnesses)."
  },
  {
   "property": "C149",
   "status": "partial",
   "theorems": [
    "Verif.Gop.stream_listed",
    "Verif.Gop.all_listed_partial",
    "Verif.Gop.listing_cut_witness"
   ],
   "note": "Proved for one stream stored in decoding order. For all streams the listing ends at the first sample of any stream behind the end, so samples of other streams are left out (witness)."
  },
  {
   "property": "C150",
   "status": "proved",
   "theorems": [
    "Verif.Date.creation_time_wrong"
   ],
   "note": "The number of seconds is counted from 3804-02-01 instead of 1904-01-01 (year and month are put into struct tm without the offsets it has), so it is negative; in 32 bits always 168633344 s too large: proved for every date and zone."
  },
  {
   "property": "C151",
   "status": "partial",
   "theorems": [
    "Verif.Date.xml_of_clock",
    "Verif.Date.xml_now_partial",
    "Verif.Date.xml_second_witness",
    "Verif.Date.scan_fields",
    "Verif.Date.read_print_partial",
    "Verif.Date.date_text_wrong",
    "Verif.Date.read_milli_witness",
    "Verif.Date.zone_ahead",
    "Verif.Date.zone_behind",
    "Verif.Date.zone_witness"
   ],
   "note": "Proved for the clock in UTC when both readings fall into the same second (otherwise a second too early, witness) and for the time of day of a date that was read. False: a date that was read or given is always printed with another year and month (proved for every date), its milliseconds come from uninitialized memory, zones behind UTC print a number of twenty digits (every whole hour), minutes of a zone are lost."
  },
  {
   "property": "C152",
   "status": "partial",
   "theorems": [
    "Verif.Date.difference_partial",
    "Verif.Date.difference_back",
    "Verif.Date.days_witness"
   ],
   "note": "Proved for two readings of the clock, the later minus the earlier. When the clock was set back the result is a huge positive number (every pair); days between two given dates are wrong (witness)."
  },
  {
   "property": "C153",
   "status": "partial",
   "theorems": [
    "Verif.Remux.all_files_added_partial",
    "Verif.Remux.fourth_stream",
    "Verif.Remux.two_tracks_witness"
   ],
   "note": "Proved for up to three streams with one track each in the first file. False otherwise: a fourth stream and all streams after a number that is left out are ignored (proved for every input); with two tracks in a first file the samples of the next stream go to the wrong track at the wrong time (witness)."
  },
  {
   "property": "C154",
   "status": "partial",
   "theorems": [
    "Verif.Remux.init_adds_nothing",
    "Verif.Remux.sound_added_partial",
    "Verif.Remux.fragments_to_movie_partial",
    "Verif.Remux.movie_readable",
    "Verif.Remux.sound_file_ok"
   ],
   "note": "Proved for sound, from the bytes of the segments to the samples read out of the movie, with the conditions of C105 and C137 (no fragment in the clear behind an encrypted one; the last samples can stay in the queue). Video goes through the computation of decoding times (C113), which is not part of the composition."
  },
  {
   "property": "C155",
   "status": "partial",
   "theorems": [
    "Verif.Validation.messages_exact",
    "Verif.Validation.silent_iff",
    "Verif.Validation.complete_files_silent",
    "Verif.Validation.end_reported",
    "Verif.Validation.last_end_not_reported",
    "Verif.Validation.empty_fragment_witness",
    "Verif.Validation.later_start_witness",
    "Verif.Validation.stream_witness"
   ],
   "note": "messages_exact says for every sequence of calls what is reported; files written completely are silent (every list). False: what is missing at the end of the last file is never reported (proved for every list of files), a fragment without samples at the beginning of a file and a file used from a later sample on are reported wrongly, a seventeenth stream writes outside of the arrays (witnesses)."
  },
  {
   "property": "C156",
   "status": "partial",
   "theorems": [
    "Verif.Slice.pps_read_partial",
    "Verif.Slice.pps_print_partial",
    "Verif.Slice.pps_print_fails",
    "Verif.Slice.pps_print_ext_partial",
    "Verif.Slice.pps_print_witness",
    "Verif.Slice.pps_explicit_witness",
    "Verif.Slice.ppsA_ok",
    "Verif.Slice.ppsB_ok",
    "Verif.Slice.ppsB_nal",
    "Verif.Slice.ppsA_ext_nal"
   ],
   "note": "The part before the extension is read right for every parameter set but those with an explicit slice group map (type 6 is read with the wrong code, witness); codes up to 2^31 - 2, numbers up to 2^23. The extension is never read on opening. Printing a decoder configuration reads it when it has no scaling matrix, unless it has 3 bits and begins at bit 4 of a byte; a parameter set without extension cannot be printed when its length is 0 to 3 modulo 8: proved for every such parameter set. Payloads ending in 3: see C40."
  },
  {
   "property": "C157",
   "status": "partial",
   "theorems": [
    "Verif.Slice.slice_read_partial",
    "Verif.Slice.slices_ok",
    "Verif.Slice.sliceB_bytes",
    "Verif.Slice.field_memory_witness",
    "Verif.Slice.slice_type_witness",
    "Verif.Slice.colour_plane_witness"
   ],
   "note": "Proved for every pair of parameter sets without separate colour planes, with the field flag in memory being 0 where it is used although it is not in the header. False otherwise (witnesses): the flag is not initialised; for slice types 5 to 9 direct flag and reference picture numbers are not read; colour_plane_id is not read."
  },
  {
   "property": "C158",
   "status": "partial",
   "theorems": [
    "Verif.Slice.listing_partial",
    "Verif.Slice.sei_read",
    "Verif.Slice.units_listed_partial",
    "Verif.Slice.length_size_witness",
    "Verif.Slice.sliceI_bytes"
   ],
   "note": "Proved for every list of units with lengths of four bytes (samples below 4 GB) under the conditions of C157; with other lengths the place of the second unit is wrong (witness). Pictures timings (SEI type 1) are not modelled."
  },
  {
   "property": "C159",
   "status": "partial",
   "theorems": [
    "Verif.Span.times_shown_partial",
    "Verif.Span.raw_times",
    "Verif.Span.ctts_read_iff"
   ],
   "note": "Proved for every track that can be opened with positive durations and a composition offset for each sample or none (times below 2^64 / 10^7 units). A track can be opened if and only if no sample is shown before the first one (ctts_read_iff): otherwise the reader reads before its array."
  },
  {
   "property": "C160",
   "status": "partial",
   "theorems": [
    "Verif.Span.decoding_start",
    "Verif.Span.decoding_end_wrong",
    "Verif.Span.decoding_end_witness"
   ],
   "note": "The start is right. The end is false: the decoding time of the sample whose number is the number of streams less one; proved too early for every stream with more samples than the file has streams."
  },
  {
   "property": "C161",
   "status": "proved",
   "theorems": [
    "Verif.Presentation.streams_listed",
    "Verif.Presentation.streams_kept"
   ],
   "note": "For first files with less than 2^31 streams; later files have at least as many streams as the presentation (the joiner refuses others)."
  },
  {
   "property": "C162",
   "status": "proved",
   "theorems": [
    "Verif.Presentation.segment_file",
    "Verif.Presentation.file_of_add"
   ],
   "note": ""
  },
  {
   "property": "C163",
   "status": "proved",
   "theorems": [
    "Verif.Presentation.adds_accepted"
   ],
   "note": ""
  },
  {
   "property": "C164",
   "status": "proved",
   "theorems": [
    "Verif.Presentation.rebase_moves"
   ],
   "note": ""
  },
  {
   "property": "C165",
   "status": "proved",
   "theorems": [
    "Verif.Request.hls_follows",
    "Verif.Request.dash_follows",
    "Verif.Request.given_values"
   ],
   "note": "For command lines of fewer than 2^31 arguments (argc is an int). Numbers are reduced to 64 bits as in the program."
  },
  {
   "property": "C166",
   "status": "partial",
   "theorems": [
    "Verif.Request.hls_answers_partial",
    "Verif.Request.hls_no_input",
    "Verif.Request.dash_answers_partial",
    "Verif.Request.dash_many_languages",
    "Verif.Request.dash_short_language"
   ],
   "note": "hls: proved whenever there is an input; without one the program divides by zero (hls_no_input). ssf and dash: proved for at most 16 audio streams and languages of at least two letters; more than 16 write outside of an array, shorter ones are read behind their end (proved)."
  },
  {
   "property": "C167",
   "status": "partial",
   "theorems": [
    "Verif.Request.dash_languages_partial",
    "Verif.Request.languages_lost"
   ],
   "note": "Each item gets as many codes as there are audio streams. The codes are false: the letters are joined by || so that every code is 0 or 1 (witness); nothing reads them."
  },
  {
   "property": "C168",
   "status": "proved",
   "theorems": [
    "Verif.Request.audio_file",
    "Verif.Request.video_file",
    "Verif.Request.published_accepted",
    "Verif.Request.given_values"
   ],
   "note": "video_file for bit rates that every input has and that are different within an input. The ends of the parts move forward (as the joiner makes them)."
  },
  {
   "property": "C169",
   "status": "partial",
   "theorems": [
    "Verif.Rate.rate_partial",
    "Verif.Rate.table_rate_partial",
    "Verif.Rate.tableOf_rate_partial",
    "Verif.Rate.exact_rate",
    "Verif.Rate.file_rate",
    "Verif.Rate.short_witness",
    "Verif.Rate.part_witness",
    "Verif.Rate.large_witness"
   ],
   "note": "Proved: never lower than the right rate, higher by the factor (s + 1) / s at most for a track of s whole seconds and a part, exact for whole seconds. False otherwise: 0 for every track of less than a second; with one size for all samples the size is taken at 2^32 (0 for exactly 4 GB). Lengths below 2^64 / 10^7 units."
  },
  {
   "property": "C170",
   "status": "partial",
   "theorems": [
    "Verif.KeyText.hex_of_64",
    "Verif.KeyText.any_text",
    "Verif.KeyText.empty_key",
    "Verif.KeyText.decode_room",
    "Verif.KeyText.hex64_partial",
    "Verif.KeyText.hex64_no_zero",
    "Verif.KeyText.hex64_lost",
    "Verif.KeyText.hex64_odd",
    "Verif.KeyText.there_and_back_partial"
   ],
   "note": "64hex: proved for every key that is not empty (an empty one writes behind a buffer of no bytes) and has no { (C02). hex64: proved for keys with a zero byte behind bytes the locale can show. Without a zero byte the key is read behind its end (it is shown as C text first); with a byte the locale cannot show before the zero byte the output stream fails and the base64 is not shown. A last digit without partner is left out."
  },
  {
   "property": "C171",
   "status": "proved",
   "theorems": [
    "Verif.CodecData.rate_of_file",
    "Verif.CodecData.accepted_iff",
    "Verif.CodecData.file_published",
    "Verif.CodecData.init_gets",
    "Verif.CodecData.manifest_gets",
    "Verif.CodecData.codec_gets",
    "Verif.CodecData.long_lost"
   ],
   "note": "For parameter sets below 64 KB (a file cannot hold longer ones; their lengths would be cut, long_lost). Of first files with the same bit rate the last one counts. The middle byte of the codec name is wrong in the manifests (see the claims on codec names)."
  }
 ]
}