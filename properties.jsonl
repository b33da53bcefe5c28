{"id": "C01", "title": "Base64 round trip", "statement": "Encoding any byte string with base64_encode_block/base64_encode_blockend and decoding the text with base64_decode_block gives back exactly the original bytes.", "quantifier": "every byte string of every length, every byte value", "why_tests_cant": "a test fixes lengths and contents; the three-step packing state machine must be right for every length modulo 3 and every bit pattern", "anchors": ["src/b64/src/cencode.cpp: base64_encode_block, base64_encode_blockend", "src/b64/src/cdecode.cpp: base64_decode_block"]}
{"id": "C02", "title": "Base64 is RFC 4648 and streaming is transparent", "statement": "The concatenation of the outputs of any sequence of base64_encode_block calls on one state followed by base64_encode_blockend is the RFC 4648 text (with '=' padding, length 4*ceil(n/3)) of the concatenated input; decoding is likewise independent of how the text is cut into blocks.", "quantifier": "every way of cutting every byte string / text into blocks", "why_tests_cant": "cut points interact with the saved step and partial byte; there are exponentially many ways to cut", "anchors": ["src/b64/src/cencode.cpp: base64_encode_block, base64_encode_blockend", "src/b64/src/cdecode.cpp: base64_decode_block"]}
{"id": "C03", "title": "Base64 decoder stays inside its table and ignores foreign characters", "statement": "For every input text the decoder looks only at entries of its 80-entry value table, and characters outside the alphabet (line breaks, '=', blanks) do not change the decoded bytes.", "quantifier": "every input text over all 256 character values", "why_tests_cant": "the out-of-range lookup happens for one single character value and does not crash; only a statement over every character settles it", "anchors": ["src/b64/src/cdecode.cpp: base64_decode_value, base64_decode_block"]}
{"id": "C04", "title": "Bit fields written are the bit fields read", "statement": "Writing any sequence of (value, width) fields with putbits and flushing a whole number of bytes, then reading the same widths with getbits from the produced bytes, returns each value modulo 2^width, for every buffer size.", "quantifier": "every field sequence with widths 1..32, every write buffer size of at least 5 bytes, every alignment", "why_tests_cant": "a test tries some alignments; the shift/mask cases and the flush in the middle of a field sequence depend on the whole history of widths", "anchors": ["src/mg/core/bitstream.h: _putbits, _flush_buf, _flush, _getbits, _nextbits"]}
{"id": "C05", "title": "Bit writer produces exactly the big-endian bit string", "statement": "The bytes handed to the storage by any sequence of putbits followed by flush are the big-endian concatenation of the low `width` bits of each value, up to the last complete byte; left-over bits stay pending, and get_position-style bit count equals the sum of widths.", "quantifier": "every field sequence, every buffer size", "why_tests_cant": "the buffered bytes, the moved left-over byte and the flushed prefix have to agree for every history", "anchors": ["src/mg/core/bitstream.h: _putbits, _flush_buf, _flush"]}
{"id": "C06", "title": "Bit writer never touches memory beyond its buffer", "statement": "putbits never reads or writes a byte outside the allocated write buffer.", "quantifier": "every history of putbits calls and every buffer size", "why_tests_cant": "an out-of-bounds |= 0 is invisible to a test", "anchors": ["src/mg/core/bitstream.h: _putbits"]}
{"id": "C07", "title": "Growing buffer keeps everything appended", "statement": "After any sequence of add calls on a CBuffer the content is the concatenation of the added blocks, the element just after the content is zero and inside the allocation, and size() is the total length.", "quantifier": "every sequence of add/prepare/updatePosition calls with any sizes", "why_tests_cant": "growth happens at size boundaries that depend on the whole history", "anchors": ["src/mg/cbuffer.h: CBuffer"]}
{"id": "C08", "title": "Box sizes describe the tree", "statement": "Writing any tree of boxes with open_box / payload writes / close_box yields bytes from which a box parser recovers exactly the same tree: each size field equals the header plus everything written until the matching close_box, and nothing else is altered.", "quantifier": "every box tree (depth and width unbounded) whose sizes fit 32 bits", "why_tests_cant": "sizes are back-patched at remembered positions; nesting depth is unbounded", "anchors": ["src/mg/media/mp4write.h: CMP4W::open_box, close_box, write_child_box, write_bytes"]}
{"id": "C09", "title": "stsc written describes the chunks", "statement": "The sample-to-chunk table written for any chunk list, expanded by the reader's rules, assigns to every chunk exactly the number of samples it was registered with.", "quantifier": "every non-empty list of chunk sample counts", "why_tests_cant": "run boundaries depend on the whole list and the last chunk is special-cased", "anchors": ["src/mg/media/mp4write.h: CMP4Stream::write_stsc", "src/mg/media/mp4parse.h: CMP4SampleManager::parse_stsc"]}
{"id": "C10", "title": "Every sample is found where it was written", "statement": "For any sequence of samples appended to the media data, the chunk table, sample sizes and chunk offsets written by the muxer, read back by the reader, give for every sample number exactly the file offset and the size at which that sample's bytes were written.", "quantifier": "every sample sequence, every interleaving of streams (any gaps between samples), every sample number", "why_tests_cant": "offset computation mixes three tables with run-length compression; a test covers a handful of layouts", "anchors": ["src/mg/media/mp4write.h: sample_written, register_chunk, flush, write_stsc, write_stsz, write_stco_body", "src/mg/media/mp4parse.h: CMP4SampleManager::get_chunk_number, get_sample_offset"]}
{"id": "C11", "title": "stts written gives back the decoding times", "statement": "Expanding the decoding time table written for a stream gives exactly one duration per sample, and their prefix sums are the scaled decoding times relative to the first sample.", "quantifier": "every list of decoding times, every time scale conversion", "why_tests_cant": "run-length boundaries and the one-off last entry depend on the whole list", "anchors": ["src/mg/media/mp4write.h: CMP4Stream::write_stts", "src/mg/media/mp4parse.h: CMP4TimeManager::parse_stts"]}
{"id": "C12", "title": "ctts written gives back the composition offsets", "statement": "Expanding the composition offset table gives, for every sample, the scaled difference between its composition and decoding time (plus the stream offset).", "quantifier": "every sample list", "why_tests_cant": "run-length boundaries depend on the whole list", "anchors": ["src/mg/media/mp4write.h: CMP4Stream::write_ctts"]}
{"id": "C13", "title": "stsz written lists every sample size", "statement": "The sample size table written for a stream declares as many samples as the stream has and yields the size of each of them.", "quantifier": "every list of sample sizes", "why_tests_cant": "only lists with all sizes equal go wrong", "anchors": ["src/mg/media/mp4write.h: CMP4Stream::write_stsz, sample_written (_has_size)", "src/mg/media/mp4parse.h: CMP4SampleManager"]}
{"id": "C14", "title": "Interleaving loses nothing and keeps order", "statement": "Whatever the interleaving of add_sample calls over streams, at every moment the samples of a stream already written to the media data followed by those still queued are exactly the samples added to it, in order, and the media data is the concatenation of the written bodies.", "quantifier": "every sequence of add_sample calls over any number of streams with any times", "why_tests_cant": "the writer holds samples back by time distance; which sample is written when depends on the whole history of all streams", "anchors": ["src/mg/media/mp4write.h: MP4Write::add_sample, CMP4Stream::write_samples, queue_sample", "src/mg/media/media_queue.h: grow_queue"]}
{"id": "C15", "title": "Ending a mux writes everything", "statement": "After end() every sample that was added is in the output file.", "quantifier": "every sequence of add_sample calls followed by end", "why_tests_cant": "depends on what is still queued when end is called, which no fixed test input decides", "anchors": ["src/mg/media/mp4mux.h: MP4Mux::end", "src/mg/media/mp4write.h: MP4Write::end, add_sample"]}
{"id": "C16", "title": "Transport stream packets are 188 bytes and carry the payload", "statement": "For any payload, output_ts emits a sequence of packets of exactly 188 bytes, each starting with 0x47 and carrying the given PID, whose payload bytes concatenated are exactly the given payload; only the first has payload_unit_start set.", "quantifier": "every payload of every length, with or without random access indication and PCR", "why_tests_cant": "the stuffing arithmetic has a different case for every residue of the length modulo 184 and for both header variants", "anchors": ["src/mg/media/tswrite.h: CTSWrite::output_ts", "src/mg/media/mp4/mpeg2ts.fl: Transport_Packet, Adaptation_Field"]}
{"id": "C17", "title": "Continuity counters are continuous", "statement": "Over any sequence of output_ts, fill_pid and table calls, the continuity counters of the packets with payload of one PID increase by one modulo 16 from packet to packet, independently of the other PIDs.", "quantifier": "every call sequence over any PIDs", "why_tests_cant": "it is a property of histories of unbounded length with wrap-around", "anchors": ["src/mg/media/tswrite.h: CTSWrite::output_ts, fill_pid, _continuity_counter"]}
{"id": "C18", "title": "Time stamps survive the 33 bit split", "statement": "Splitting a time with ToMpegTime into the 3+15+15 bit fields that are put in the PES or PCR, and putting the fields together again, gives the 90 kHz time modulo 2^33 (and the 27 MHz extension below 300).", "quantifier": "every 64-bit time", "why_tests_cant": "the masks are only wrong for large times", "anchors": ["src/mg/media/mp4/mpeg2ts.fl: MpegTime::ToMpegTime, Time", "src/mg/media/tswrite.h: set_pts_dts"]}
{"id": "C19", "title": "PES length field is right", "statement": "The PES header written before a body announces exactly the number of bytes that follow it, or 0 (unbounded) when that does not fit.", "quantifier": "every body size and every choice of PTS/DTS/ESCR", "why_tests_cant": "the boundary is a window of a few sizes near 65535 depending on the optional fields", "anchors": ["src/mg/media/tswrite.h: CPESWrite::close_pes, init_pes, set_pts_dts"]}
{"id": "C20", "title": "Section CRC is MPEG CRC-32", "statement": "The CRC put at the end of program tables equals the CRC-32/MPEG-2 of the section and makes the CRC of section plus CRC zero.", "quantifier": "every byte string", "why_tests_cant": "table-driven and bytewise code must equal the polynomial division for every input", "anchors": ["src/mg/media/wincrc.cpp: CWinCrc::crc_32"]}
{"id": "C21", "title": "CENC counter is a big-endian 128 bit increment", "statement": "The counter callback turns the 16 byte counter block into the big-endian encoding of its value plus one modulo 2^128; the per-sample IV advances by one modulo 2^64.", "quantifier": "every 16 byte counter block", "why_tests_cant": "the carry between halves happens once in 2^64 blocks", "anchors": ["src/mg/media/mp4fragmented.h: CMP4Fragment::counter8, counter"]}
{"id": "C22", "title": "CENC sub-sample layout covers the sample", "statement": "For an encrypted sample, clear plus protected bytes equals the sample size, the protected part is a whole number of AES blocks, the first 96 bytes (or the whole small sample) stay clear, and the encrypted sample has the same size.", "quantifier": "every sample size", "why_tests_cant": "the split depends on the size modulo 16 and a threshold", "anchors": ["src/mg/media/mp4fragmented.h: CMP4Fragment::add_sample, encrypt"]}
{"id": "C23", "title": "CENC decryption with the recorded IV gives back the sample", "statement": "Decrypting each sample of a fragment with the key, its recorded initialisation vector and its recorded clear/protected split gives back the original bytes, for every block cipher.", "quantifier": "every list of samples, every key stream function, every start IV", "why_tests_cant": "concerns every sample of every fragment and the chaining of IVs", "anchors": ["src/mg/media/mp4fragmented.h: CMP4Fragment::add_sample, encrypt"]}
{"id": "C24", "title": "No key stream block is used twice in a fragment", "statement": "The AES counter blocks used for the samples of one fragment are pairwise different.", "quantifier": "every list of samples (fewer than 2^64, each shorter than 2^64 blocks), every start IV including wrap-around", "why_tests_cant": "a collision would need astronomically many samples to be observed", "anchors": ["src/mg/media/mp4fragmented.h: CMP4Fragment::encrypt, counter8, counter"]}
{"id": "C25", "title": "HLS segment encryption is invertible PKCS7 CBC", "statement": "For every non-empty segment the encrypted size is the next larger multiple of 16 and CBC decryption with the IV of the sequence number followed by removing PKCS7 padding gives back the segment; sizes announced by the size query are the sizes used.", "quantifier": "every segment content and length, every sequence number, every invertible block function", "why_tests_cant": "padding differs for every length modulo 16, a full extra block at multiples of 16", "anchors": ["src/mg/media/hls_renderer.h: HLSRenderer::hls3_encrypt_buffer, ENC_SIZE, ENC_MISSING_SIZE"]}
{"id": "C26", "title": "MPD segment timeline expands to the published points", "statement": "Expanding the <S t d r> elements written for a stream by the DASH rules gives exactly the list of (time, duration) points that were added.", "quantifier": "every sequence of points", "why_tests_cant": "the run-length state depends on the whole history of points", "anchors": ["src/mg/media/mpd_renderer.h: MPDRenderer::begin_stream, add_point, end_stream"]}
{"id": "C27", "title": "HLS durations are printed correctly", "statement": "The decimal number printed in EXTINF (and in the MPD presentation duration) for a duration in 100 ns units is that duration in seconds.", "quantifier": "every duration", "why_tests_cant": "the error depends on digits of the duration", "anchors": ["src/mg/media/hls_renderer.h: add_point", "src/mg/media/mpd_renderer.h: begin"]}
{"id": "C28", "title": "Rendered points tile the time line", "statement": "The points rendered for a stream are contiguous (each starts where the previous ends), start at the first and end at the last computed time and their durations add up to the stream duration; shifting all times (rebase) shifts every point by the same offset.", "quantifier": "every set of computed points and every offset", "why_tests_cant": "holds for every insertion order and duplicate pattern", "anchors": ["src/mg/media/mp4dynamicinfo.h: DynamicPoints::Add, render, duration, rebase"]}
{"id": "C29", "title": "A time is served from the file that covers it", "statement": "get_path(t) returns the path registered at the greatest start time not after t (or the first one), whatever the order of registration; an existing start time is never overwritten.", "quantifier": "every history of Add calls and every t", "why_tests_cant": "a search in a map over every history", "anchors": ["src/mg/media/mp4dynamicinfo.h: DynamicBitrate::Add, get_iterator_path, get_path"]}
{"id": "C30", "title": "get_closest returns a nearest point", "statement": "get_closest(t) returns a published point no other published point is nearer to than, for any t not after the last point.", "quantifier": "every point set and every t", "why_tests_cant": "ties and boundary positions depend on the whole set", "anchors": ["src/mg/media/mp4dynamicinfo.h: DynamicPoints::get_closest"]}
{"id": "C31", "title": "Joining files keeps streams in sync without overlap", "statement": "The join times computed for the streams of a file leave no stream overlapping its previous part, leave no gap on at least one stream, and move all streams by the same amount relative to their starts.", "quantifier": "every number of streams, every start and end time", "why_tests_cant": "an optimisation over all streams", "anchors": ["src/mg/media/MediaJoin.h: CMediaJoin::Compute, GetJoinTime"]}
{"id": "C32", "title": "Ring queue is FIFO", "statement": "Over any sequence of push, pop and pick operations the fixed queue returns the pushed items in order with their exact headers and bodies. Without the drop option a push is refused only when there is not twice the space, and a refused push changes nothing; with it the oldest items are lost to make room, an item is refused only if it is larger than the whole room, and the queue is empty then.", "quantifier": "every operation sequence, every buffer size, every body size", "why_tests_cant": "wrap-around positions depend on the whole history", "anchors": ["src/mg/media/fixed_queue.h: fixed_queue"]}
{"id": "C33", "title": "Grow queue never drops", "statement": "The growing queue behaves as an unbounded FIFO: every pushed item comes out once, in order.", "quantifier": "every operation sequence", "why_tests_cant": "reallocation happens at history dependent moments", "anchors": ["src/mg/media/media_queue.h: grow_queue"]}
{"id": "C34", "title": "Range map finds the covering run", "statement": "Looking a key up in the range map returns the value of the first stored key not below it, with out-of-range reported, for every number of entries.", "quantifier": "every sorted key list and every looked up key", "why_tests_cant": "binary search boundary errors show only for particular sizes and keys", "anchors": ["src/mg/media/mp4parse.h: CRangeMap"]}
{"id": "C35", "title": "Split and join are inverse", "statement": "Splitting a string at a non-empty separator yields parts that contain no separator and whose joining with the separator is the original; replace substitutes every occurrence.", "quantifier": "every string and separator", "why_tests_cant": "overlapping separators and boundary positions", "anchors": ["src/mg/splitter.h: Csplitter, replace"]}
{"id": "C36", "title": "Hex text round trip", "statement": "append_hex_buffer followed by extract_binary_hex gives back the bytes.", "quantifier": "every byte string", "why_tests_cant": "every byte value and length", "anchors": ["src/mg/alxstring.h: append_hex_buffer, extract_binary_hex"]}
{"id": "C37", "title": "Shared resource is released exactly once", "statement": "For any program of copies, assignments and destructions of CResource handles, the resource is released exactly once, when and only when the last handle goes away, and never used after.", "quantifier": "every sequence of handle operations", "why_tests_cant": "a property of all histories", "anchors": ["src/mg/cresource.h: CResource"]}
{"id": "C38", "title": "Promise delivers the value once", "statement": "A handler attached before or after the value is delivered is called exactly once with the value; chained handlers run in order.", "quantifier": "every order of set and call", "why_tests_cant": "orders of attachment and completion", "anchors": ["src/mg/promises.h: CPromise"]}
{"id": "C39", "title": "Event wait is not lost", "statement": "A waiter on signal_event returns if the event is signalled.", "quantifier": "every interleaving of signal and wait", "why_tests_cant": "the race window is two instructions wide", "anchors": ["src/mg/core/thread.cpp: signal_event"]}
{"id": "C40", "title": "NAL emulation prevention is removed", "statement": "decode_nal gives back the raw payload from an escaped NAL unit.", "quantifier": "every payload", "why_tests_cant": "patterns of zeros of any length", "anchors": ["src/mg/media/h264nal.h: H264Nal::decode_nal"]}
{"id": "C41", "title": "Exp-Golomb decoding", "statement": "Reading an exp-Golomb code written for v gives v and consumes exactly the code.", "quantifier": "every value and following bits", "why_tests_cant": "codes of every length", "anchors": ["src/mg/media/mp4/h264.fl: exp_ue_golomb, exp_se_golomb"]}
{"id": "C42", "title": "Length prefixed NAL units become start-code NAL units", "statement": "For any list of NAL units stored with 4 byte lengths, the elementary stream written for the transport stream is the access unit delimiter (and parameter sets on key frames) followed by each unit preceded by 00 00 00 01, in order.", "quantifier": "every list of NAL units", "why_tests_cant": "unbounded list; pointer walk", "anchors": ["src/mg/media/tsmux.h: TSMuxH264Stream::add_sample, process_nal"]}
{"id": "C43", "title": "MPEG-4 descriptor lengths", "statement": "The four byte length written for a descriptor is read back as the same length.", "quantifier": "every length", "why_tests_cant": "boundary at 2^28", "anchors": ["src/mg/media/mp4/mpeg4_odf.fl: descriptor"]}
{"id": "C44", "title": "100 ns times decompose and recompose", "statement": "Hours, minutes, seconds and milliseconds of a HundredNano recompose to the time rounded down to a millisecond.", "quantifier": "every 64-bit time", "why_tests_cant": "overflow and boundary values", "anchors": ["src/mg/media/hnano.h: HundredNano"]}
{"id": "C45", "title": "Fragments partition the samples", "statement": "Cutting a stream at any sequence of increasing times into fragments puts every sample into exactly one fragment, in order.", "quantifier": "every sample list and cut list", "why_tests_cant": "composition order differs from file order in ways depending on the stream", "anchors": ["src/mg/media/mp4fragmented.h: CMP4Fragment::add_frames_to_m4f"]}
{"id": "C46", "title": "Fragment data offsets point at the sample data", "statement": "The data offset of the run box of a fragment plus the position of the fragment's moof is the first byte of the fragment's sample data, and the declared sizes walk exactly the samples.", "quantifier": "every fragment", "why_tests_cant": "back-patched positions over variable size boxes", "anchors": ["src/mg/media/mp4fragmented.h: CMP4Fragment::end"]}
{"id": "C47", "title": "copy_stream copies the stream", "statement": "copy_stream copies exactly the bytes from the start position to the end for every chunk size.", "quantifier": "every content, chunk size and position", "why_tests_cant": "chunk boundaries", "anchors": ["src/mg/core/bitstream.cpp: copy_stream"]}
{"id": "C48", "title": "Signed bit fields are sign extended", "statement": "Reading an n bit signed field returns the two's complement value of those n bits, for every n from 2 to 32.", "quantifier": "every field width and bit pattern, every position in the stream", "why_tests_cant": "sign handling depends on width and value", "anchors": ["src/mg/core/bitstream.h: _sgetbits, _nextbits"]}
{"id": "C49", "title": "Reader does not depend on memory after the data", "statement": "The values read from a memory block do not depend on the bytes that follow the block in memory, and reading past the end raises EndOfData instead of returning invented bits.", "quantifier": "every memory block, every content behind it, every sequence of field widths", "why_tests_cant": "the words read speculatively behind the block happen to be zero in most tests", "anchors": ["src/mg/core/bitstream.h: _getbits, _nextbits"]}
{"id": "C50", "title": "Little-endian fields round trip", "statement": "A little-endian field of whole bytes written with putbits_little is stored least significant byte first and read back with getbits_little.", "quantifier": "every value, 8/16/24/32 bit widths, every position", "why_tests_cant": "bit positions not byte aligned are never used in tests", "anchors": ["src/mg/core/bitstream.h: putbits_little, getbits_little, _little"]}
{"id": "C51", "title": "Memory storage is a file", "statement": "The growing memory storage used for in-memory muxing behaves as a file: after any sequence of writes and seeks back (never beyond the end), its content is what an ordinary file would contain.", "quantifier": "every sequence of writes and seeks and every initial size", "why_tests_cant": "overwrites that straddle the end and growth happen at history dependent positions", "anchors": ["src/mg/media/TBitstream.h: fixed_memory_write", "src/mg/cbuffer.h: CBuffer"]}
{"id": "C52", "title": "Buffered stream over memory is a byte file", "statement": "Writing 32-bit fields and byte blocks and seeking back and forth through the buffering bit stream leaves in the storage the bytes an ordinary file would have, and get_position is the file position, for every buffer size.", "quantifier": "every sequence of writes, blocks and seeks, every buffer size", "why_tests_cant": "pending bytes in the buffer interact with seeks only for certain sizes", "anchors": ["src/mg/core/bitstream.h: write, set_position, get_position, flush", "src/mg/media/TBitstream.h: write_memory_bitstream"]}
{"id": "C54", "title": "Chunk of a sample is found for every table", "statement": "For every valid sample-to-chunk table, asking the reader for a sample number returns the chunk that contains it and its index in that chunk.", "quantifier": "every valid table (any number of runs, any chunk and sample counts) and every sample in it", "why_tests_cant": "the interpretation of runs interacts with the range search only for particular shapes", "anchors": ["src/mg/media/mp4parse.h: CMP4SampleManager::parse_stsc, get_chunk_number"]}
{"id": "C55", "title": "Decoding times read from a table are running sums", "statement": "For every time-to-sample table the reader has one sample per table duration, and the decoding time of sample i is the sum of the i durations before it.", "quantifier": "every table and every sample", "why_tests_cant": "the number of runs and their lengths are unbounded", "anchors": ["src/mg/media/mp4parse.h: CMP4TimeManager::parse_stts, get_decoding_time"]}
{"id": "C56", "title": "Sample at a decoding time", "statement": "For every time-to-sample table with positive counts and durations and every time before its end, looking up a decoding time returns the sample whose interval contains that time.", "quantifier": "every table and every time", "why_tests_cant": "boundary times between runs take a different path than times inside runs", "anchors": ["src/mg/media/mp4parse.h: CMP4TimeManager::get_decoding_sample_number"]}
{"id": "C57", "title": "Sync flags survive", "statement": "The sync-sample table written for a video stream, read back, marks exactly the samples that were added as sync samples.", "quantifier": "every sequence of samples with any sync flags", "why_tests_cant": "streams in tests begin with a sync sample and have regular key frame distances", "anchors": ["src/mg/media/mp4write.h: write_stss, sample_written", "src/mg/media/mp4parse.h: parse_stss, is_IFrame"]}
{"id": "C58", "title": "Composition times and presentation order", "statement": "For every pair of time-to-sample and composition tables, the reader gives every sample the composition time decoding time plus offset, and its presentation order lists every sample once sorted by that time.", "quantifier": "every pair of tables of equal length", "why_tests_cant": "reordering patterns other than the usual B-frame structures are not in the fixtures", "anchors": ["src/mg/media/mp4parse.h: parse_ctts, add_ordered, get_composition_time"]}
{"id": "C59", "title": "Sample at a composition time", "statement": "Looking up a composition time returns the sample presented last at or before that time.", "quantifier": "every stream and every time", "why_tests_cant": "only times near existing samples are queried in tests", "anchors": ["src/mg/media/mp4parse.h: get_composition_sample_number"]}
{"id": "C60", "title": "add_sample returns and bounds buffering", "statement": "For every history of samples with non-negative times below 2^63 - 100000 every add_sample call returns, and after it at least one stream has no queued sample.", "quantifier": "every number of streams, every history, every distance setting", "why_tests_cant": "the retry loop's progress depends on wrap-around arithmetic and on the mutual state of all streams", "anchors": ["src/mg/media/mp4write.h: MP4Write::add_sample, min_stream, CMP4Stream::write_samples"]}
{"id": "C61", "title": "Program tables describe the streams", "statement": "Whatever streams are registered with a transport stream mux, the program tables written before the first sample are valid sections (length and CRC) that announce exactly the registered video and audio streams on the PIDs on which their samples are sent, and the tables repeated later are the same.", "quantifier": "every set of streams (up to what a section can hold), every order of adding them, every content of uninitialised memory", "why_tests_cant": "the tests register one video and one audio stream only", "anchors": ["src/mg/media/tsmux.h: add_visual_stream, add_audio_stream, add_extension_ltc_stream", "src/mg/media/tswrite.h: output_sections_tables, add_pam"]}
{"id": "C62", "title": "A receiver gets back what was muxed", "statement": "For every interleaving of samples added to a transport stream mux, demultiplexing the output gives, on the PID of every stream, exactly one PES packet per sample, in order, with the sample's time stamps (plus the mux's offsets) and its elementary stream data.", "quantifier": "every sequence of samples of any sizes and times over any streams", "why_tests_cant": "packetisation has size dependent branches; tests mux one file", "anchors": ["src/mg/media/tsmux.h: TSMux::add_sample", "src/mg/media/tswrite.h: output_ts"]}
{"id": "C63", "title": "Audio samples become ADTS frames", "statement": "Every AAC sample is carried as an ADTS frame whose header announces the frame's own length and the object type, sample rate and channel configuration of the stream.", "quantifier": "every sample size that fits the 13 bit length and all registered parameters", "why_tests_cant": "lengths come from the media", "anchors": ["src/mg/media/tsmux.h: TSMuxAACStream", "src/mg/media/mp4/aac.fl: ADTS"]}
{"id": "C64", "title": "HLS segments keep one time base", "statement": "After set_composition_start_time(base) the first sample of a segment is presented at base and all later samples of all streams keep their distance from it.", "quantifier": "every base and every sequence of sample times", "why_tests_cant": "differences are taken in unsigned 64 bit arithmetic, where samples before the first one wrap", "anchors": ["src/mg/media/tsmux.h: HLSMux::add_sample, set_composition_start_time"]}
{"id": "C65", "title": "A media fragment reads back as the samples that were added", "statement": "A fragment written by the fragment writer, at any place in an output file, is read by an ISO player (through box sizes, run box, data offset and, when encrypted, the sample encryption boxes) as exactly the samples that were added: sequence number, track, decoding time, durations, sizes, composition offsets and contents; the encryption entries found in the senc box and through saiz/saio are the same, and decrypting with them gives the original bytes.", "quantifier": "every non-empty list of samples (below 2 GB), every track, sequence number, time scale, decoding time, flags, with and without encryption, every key and start IV, any preceding bytes", "why_tests_cant": "composition of sizes, back-patched offsets, counters and per-sample tables over unbounded sample lists", "anchors": ["src/mg/media/mp4fragmented.h: CMP4Fragment::start, add_sample, end", "src/mg/media/mp4/mp4_fragments.fl", "src/mg/media/mp4/cenc.fl"]}
{"id": "C66", "title": "The segment index describes the fragment that follows", "statement": "The sidx box in front of a fragment announces the track, the time scale, the presentation time of the first sample, the number of bytes of the fragment and the sum of the sample durations.", "quantifier": "every fragment, at every time of the presentation", "why_tests_cant": "presentation times grow without bound while the field is 32 bits wide", "anchors": ["src/mg/media/mp4fragmented.h: CMP4Fragment::end", "src/mg/media/mp4/mp4.fl: SegmentIndexBox"]}
{"id": "C67", "title": "A player can decrypt encrypted HLS segments", "statement": "A player that follows the playlist (key, and the IV implied by the media sequence number of the segment) decrypts every encrypted segment to the transport stream that was muxed.", "quantifier": "every segment content, every position in the playlist, every block cipher", "why_tests_cant": "the IV depends on how many segments were written before", "anchors": ["src/mg/media/tsinfo.cpp: hls_encrypt and its callers", "src/mg/media/hls_renderer.h: HLSRenderer::hls3_encrypt_buffer"]}
{"id": "C68", "title": "A segment ends where the next one starts", "statement": "The end time reported for a segment start, on the presentation time line and on the time line of the file it comes from, is the start of the next segment, also when another file begins in between.", "quantifier": "every history of added points, cross points and file starts, every segment start", "why_tests_cant": "depends on the order in which points and files were registered", "anchors": ["src/mg/media/mp4dynamicinfo.h: DynamicPoints::get_end, get_end_computed, rebase"]}
{"id": "C69", "title": "Segment starts are spaced by the fragment length", "statement": "Of the I frames of a stream the first starts a segment, segment starts are at least the fragment length (less the tolerance) apart, and no I frame that far from the previous start is skipped.", "quantifier": "every increasing list of I frame times, every length and tolerance", "why_tests_cant": "depends on all previous decisions", "anchors": ["src/mg/media/mp4dynamic.cpp: CMP4DynamicDiscreate::publish_composition, move_to_read"]}
{"id": "C70", "title": "A DASH client asks for the files that were written", "statement": "Filling the templates of the MPD with the bandwidth of a representation and the times of its segments gives, for the whole presentation, exactly the names of the initialization and media files the tool writes.", "quantifier": "every presentation: any number of streams, bitrates and segments", "why_tests_cant": "templates, names and times are produced by different components", "anchors": ["src/mg/media/mpd_renderer.h: MPDRenderer", "src/mgcli/mp4info.cpp: dynamic publishing of segments"]}
{"id": "C71", "title": "Representation identifiers are unique", "statement": "No two representations of an MPD have the same id.", "quantifier": "every presentation", "why_tests_cant": "depends on the set of bitrates of all streams", "anchors": ["src/mg/media/mpd_renderer.h: MPDRenderer"]}
{"id": "C72", "title": "Announced codecs are the codecs of the media", "statement": "The codecs string a DASH client finds for a representation (its own or that of the adaptation set) is the RFC 6381 name of the codec data of that bitrate.", "quantifier": "every sequence parameter set, every combination of bitrates", "why_tests_cant": "inheritance from the adaptation set depends on the order and contents of the bitrates", "anchors": ["src/mg/media/mpd_renderer.h: MPDRenderer", "src/mg/media/mpd_renderer.h: get_video_codec"]}
{"id": "C73", "title": "HLS playlist lists the segments of its bitrate", "statement": "The playlist written for a video bitrate lists exactly the points of the video stream, in order, each under its segment address and with its duration text, and announces the encryption key when the presentation is encrypted.", "quantifier": "every presentation with one video stream and any number of audio streams", "why_tests_cant": "state is carried from stream to stream", "anchors": ["src/mg/media/hls_renderer.h: HLSRenderer"]}
{"id": "C74", "title": "HLS playlist is playable", "statement": "The target duration is an upper bound of the rounded segment durations, and the playlist is complete: it ends with EXT-X-ENDLIST.", "quantifier": "every presentation", "why_tests_cant": "depends on the order of the streams and on the longest segment", "anchors": ["src/mg/media/hls_renderer.h: HLSRenderer"]}
{"id": "C75", "title": "HLS playlist refers to the files written", "statement": "The addresses in a playlist are the names of the segment files written for that bitrate.", "quantifier": "every presentation and stream name", "why_tests_cant": "stream names come from the user", "anchors": ["src/mg/media/hls_renderer.h: HLSRenderer", "src/mgcli/mp4info.cpp: dynamic publishing of segments"]}
{"id": "C76", "title": "HLS master playlist lists all variants", "statement": "A client finds in the master playlist one variant per video bitrate, with its bandwidth, codec and resolution, whose address is the playlist written for that bitrate.", "quantifier": "every presentation", "why_tests_cant": "bitrates of several streams interact", "anchors": ["src/mg/media/hls_renderer.h: HLSRenderer"]}
{"id": "C77", "title": "Smooth Streaming manifest describes the presentation", "statement": "A client reads from the Smooth manifest the duration, one stream index per stream in order with its quality levels, and the (time, duration) chunks, and the addresses it derives are the names of the files written.", "quantifier": "every presentation", "why_tests_cant": "counters and text are accumulated over the whole history", "anchors": ["src/mg/media/mp4dynamicinfo.h: SSFRenderer"]}
{"id": "C78", "title": "Smooth codec data is Annex B", "statement": "The CodecPrivateData of a video level is the sequence and the picture parameter set of that bitrate each preceded by a start code, in hexadecimal.", "quantifier": "every pair of parameter sets", "why_tests_cant": "lengths vary with the encoder", "anchors": ["src/mg/media/mp4dynamicinfo.h: SSFRenderer"]}
{"id": "C79", "title": "Smooth counts are right", "statement": "The numbers of chunks and quality levels announced by a stream index are the numbers it contains.", "quantifier": "every presentation", "why_tests_cant": "the count is computed apart from the chunks", "anchors": ["src/mg/media/mp4dynamicinfo.h: SSFRenderer"]}
{"id": "C80", "title": "Sequence parameter sets are parsed", "statement": "A sequence parameter set NAL unit written according to H.264 is parsed to the values the encoder wrote, with all of the video usability information.", "quantifier": "every parameter set: all values of all syntax elements, with every combination of optional parts", "why_tests_cant": "the presence of elements depends on others and all have variable length", "anchors": ["src/mg/media/mp4/h264.fl: H264Sequence, vui_parameters, hrd_parameters", "src/mg/media/h264nal.h: H264Nal::decode_nal"]}
{"id": "C81", "title": "The decoder configuration record holds the parameter sets", "statement": "The avcC record made from a sequence and a picture parameter set is the record of ISO/IEC 14496-15 for them, and any such record is read to the parameter sets, profile, level and length size in it.", "quantifier": "every pair of parameter sets; every record", "why_tests_cant": "sizes and flags come from the encoder", "anchors": ["src/mg/media/mp4write.h: AVCDecoderConfigurationRecordFromSPSandPPS", "src/mg/media/mp4/mp4.fl: AVCDecoderConfigurationRecord"]}
{"id": "C82", "title": "Picture size of a video stream", "statement": "The width and height given to a video stream made from parameter sets are those of the pictures shown.", "quantifier": "every sequence parameter set", "why_tests_cant": "cropping and interlacing", "anchors": ["src/mg/media/mp4write.h: AVCDecoderConfigurationRecordFromSPSandPPS"]}
{"id": "C83", "title": "Polls of an event tell the truth", "statement": "wait(ms) and is_signaled() return true only if signal() was called before; once signal() has returned and nobody calls reset(), every later poll returns true, so that a stop request to a thread is seen; after a reset() that no other call overlaps, polls return false until the next signal().", "quantifier": "every interleaving of any number of threads calling signal, reset, wait and wait(ms)", "why_tests_cant": "depends on the schedule", "anchors": ["src/mg/core/thread.cpp: signal_event::signal, wait, reset", "src/mg/core/thread.h: cthread::stop, should_stop"]}
{"id": "C84", "title": "Asynchronous file requests are answered once, and reads in order", "statement": "For every asynchronous request on a file the handler is called exactly once, with the outcome of that request; reads are answered in the order in which they were made; when all requests are completed the file can be closed.", "quantifier": "every history of requests and every order in which the thread pool completes them", "why_tests_cant": "the order of completion is up to the operating system", "anchors": ["src/mg/core/file.cpp: cfile::uv_file_cb, read, write, close", "src/mg/core/file.h: do_outstanding"]}
{"id": "C85", "title": "Reading a file in pieces gives the file", "statement": "The buffers passed to the handlers of successive reads, put together, are the file up to the number of bytes asked for, and eof() tells when all of it has been asked for.", "quantifier": "every file, every sequence of sizes, every interleaving of reads and completions", "why_tests_cant": "depends on sizes and on the schedule", "anchors": ["src/mg/core/file.cpp: cfile::read", "src/mg/core/file.h: size, eof, file_bitstream"]}
{"id": "C86", "title": "Written data is in the file", "statement": "The file contains what was written, as if the writes had been carried out in the order in which they were made.", "quantifier": "every sequence of writes and moves of the position, every order in which the thread pool carries the writes out", "why_tests_cant": "depends on the schedule", "anchors": ["src/mg/core/file.cpp: cfile::write"]}
{"id": "C87", "title": "The esds box of a written audio stream", "statement": "The esds box the writer makes for an AAC stream is the descriptor of ISO/IEC 14496-1 with the configuration of its object type, sampling rate and channels and the bit rates it was given; the parser reads these values back.", "quantifier": "every object type, rate, channel configuration and bit rate", "why_tests_cant": "nested lengths depend on each other", "anchors": ["src/mg/media/mp4write.h: CMP4Write::add_audio_stream", "src/mg/media/mp4/mpeg4_odf.fl: ES_Descriptor::set_extension", "src/mg/media/mp4/aac.fl: aac_info_mp4"]}
{"id": "C88", "title": "The esds box of any file is read", "statement": "From an esds box written according to ISO/IEC 14496-1, 14496-3 and 14496-14 the parser gets the object type, the sampling frequency and the channels, whatever the form of the lengths, the optional parts and the descriptors and boxes that follow.", "quantifier": "every ES descriptor, every form of its lengths, every AudioSpecificConfig", "why_tests_cant": "written by other programs", "anchors": ["src/mg/media/mp4parse.h: CMP4AudioEntry::parse", "src/mg/media/mp4/mpeg4_odf.fl: descriptor, ES_Descriptor, DecoderConfigDescriptor", "src/mg/media/mp4/aac.fl: aac_info_mp4"]}
{"id": "C89", "title": "Codec private data is kept", "statement": "An audio stream that is added with codec private data has it as its decoder specific information.", "quantifier": "every AudioSpecificConfig", "why_tests_cant": "comes from other programs", "anchors": ["src/mg/media/mp4write.h: CMP4Write::add_audio_stream"]}
{"id": "C90", "title": "Reading a file sample by sample", "statement": "Calling next_file_chunks until it returns false delivers every sample of every track from its current position on, exactly once, each track in its order; when samples do not overlap they come in the order in which they lie in the file.", "quantifier": "every file whose samples lie inside the media data, every number and interleaving of tracks, every position", "why_tests_cant": "which track is read next depends on all positions and on the offset reached, for any interleaving", "anchors": ["src/mg/media/mp4parse.h: MP4Reader::next_file_chunks, CPM4Track::pick_sample, move_next"]}
{"id": "C91", "title": "Moving to a time", "statement": "After move(time) the track is at the last sync sample that is decoded by that time (the first one if there is none).", "quantifier": "every sync and time table, every time scale and time", "why_tests_cant": "rounding between 100 ns and the track's time scale differs for each value", "anchors": ["src/mg/media/mp4parse.h: MP4Reader::move, CPM4Track::get_IFrame_number, get_decoding_sample_number"]}
{"id": "C92", "title": "Base media decode time of a fragment", "statement": "A fragment cut out of a track has as its base media decode time the decoding time of its first sample (on the time line of the track).", "quantifier": "every track, every pair of times", "why_tests_cant": "depends on where the cut falls between samples", "anchors": ["src/mg/media/mp4fragmented.h: add_frames_to_m4f"]}
{"id": "C53", "title": "Reading through the buffered file reader gives the file", "statement": "Whatever mixture of bit fields and byte blocks a program asks a file bit stream for, the bits it gets, put together, are the bits of the file from its beginning; unless the end of the file is reached every call is answered in full.", "quantifier": "every file, every buffer size, every sequence of fields and byte blocks, every time at which the answers of the disk come", "why_tests_cant": "data moves between two buffers at places that depend on all earlier calls and on the schedule", "anchors": ["src/mg/core/bitstream.h: bitstream_base fill_buf, read_cb, _nextbits, _getbits, __read, _read", "src/mg/core/file.h: file_bitstream, sync_file_bitstream"]}
{"id": "C93", "title": "The end of a file is noticed at its end", "statement": "eof() of a file bit stream is true when and only when the whole file has been read; asked for more, the reader gives the rest of the file or raises an end of data, and never data that is not in the file.", "quantifier": "every file, every buffer size, every sequence of reads, every time at which the answers of the disk come", "why_tests_cant": "the end is computed from the state of the disk and of two buffers", "anchors": ["src/mg/core/bitstream.h: atend, fill_buf, _nextbits, _read", "src/mg/core/file.h: eof"]}
{"id": "C94", "title": "Moving in a file", "statement": "After set_position, skipbits, skipbytes and align, in any order and mixed with reads, what is read is what the file has at the position these calls lead to, and get_position gives that position.", "quantifier": "every file, every buffer size, every sequence of calls, every time at which the answers of the disk come", "why_tests_cant": "a move is done inside the buffer, by switching buffers or by reading again, depending on everything before", "anchors": ["src/mg/core/bitstream.h: _set_position_read, _skipbits, _align, _get_position, reload", "src/mg/media/mp4parse.h: CMP4::skipbytes", "src/mg/core/file.h: set_position"]}
{"id": "C95", "title": "NAL units of a byte stream are found", "statement": "From H.264 data in byte stream format the demultiplexer hands on exactly the NAL units in it, each once, in order and complete, whatever the length of the start codes.", "quantifier": "every list of NAL units, every mixture of start codes and leading and trailing zero bytes", "why_tests_cant": "units are delimited by patterns that can lie anywhere", "anchors": ["src/mg/media/tsparse.h: TSProgramElementaryStreamAnalyzeH264::ReceiveElementaryStreamData"]}
{"id": "C96", "title": "ADTS frames of a PES packet are found", "statement": "From the ADTS frames in a PES packet the demultiplexer hands on each frame once, in order, with its object type, frequency, channels and exactly its data.", "quantifier": "every list of frames, with and without CRC, every header value", "why_tests_cant": "frame boundaries depend on all lengths before them", "anchors": ["src/mg/media/tsparse.h: TSProgramElementaryStreamAnalyzeAAC::ReceiveElementaryStreamData", "src/mg/media/mp4/aac.fl: ADTS"]}
{"id": "C97", "title": "Audio frames get consecutive times", "statement": "The frames of a PES packet get times that follow the time stamp of the packet by their exact durations.", "quantifier": "every sampling frequency, every number of frames, every time stamp", "why_tests_cant": "the error of a duration is multiplied by the number of the frame", "anchors": ["src/mg/media/tsinfo.cpp: TS2MP4AAC::AACPayload"]}
{"id": "C98", "title": "An access unit becomes one MP4 sample", "statement": "Converting a transport stream to MP4 makes of every access unit one sample with its coded NAL units, each preceded by its length, and the decoder configuration from the parameter sets of the stream; frames packaged by the muxer come back byte for byte.", "quantifier": "every sequence of access units", "why_tests_cant": "parameter sets are kept from one access unit to the next", "anchors": ["src/mg/media/tsinfo.cpp: TS2MP4H264::NalPayload, PacketEnd", "src/mg/media/tsparse.h"]}
{"id": "C99", "title": "Transport packets are read", "statement": "From a file of 188 byte transport packets the reader gets each packet once and in order with its start indicator, pid, random access indicator and payload; on any file it makes progress and ends.", "quantifier": "every file; every combination of adaptation field contents", "why_tests_cant": "optional parts shift everything behind them", "anchors": ["src/mg/media/ts.h: tspacket::add", "src/mg/media/mp4/mpeg2ts.fl: Transport_Packet, Adaptation_Field"]}
{"id": "C100", "title": "PES headers are read", "statement": "From every PES packet with header the reader gets stream id, length, presentation and decoding time stamps, and the position of the data behind the header, whatever optional fields are present.", "quantifier": "every PES packet", "why_tests_cant": "each of the optional fields moves those behind it", "anchors": ["src/mg/media/mp4/mpeg2ts.fl: PesBase, PesData", "src/mg/media/ts.h: ts_pes"]}
{"id": "C101", "title": "PES packets are delivered once, in order and complete", "statement": "On every pid each PES packet is put together from its transport packets and handed to the receiver once, in order, with header, data and the random access indicator of its own packets, for packets with and without length.", "quantifier": "every transport stream file, every division of PES packets into transport packets, every interleaving of pids", "why_tests_cant": "assembly depends on the whole history of the pid", "anchors": ["src/mg/media/ts.h: tspacket, ts_pes", "src/mg/media/tsparse.h: TSProgramElementaryStreamAnalyze"]}
{"id": "C102", "title": "Multiplexing and demultiplexing gives back the samples", "statement": "Samples multiplexed by the program into a transport stream and demultiplexed by the program come back: for each stream all of them, once, in order, with their times (at millisecond resolution, as 33 bit numbers), data and parameters.", "quantifier": "every interleaving of samples of any number of streams, every size and time", "why_tests_cant": "writer and reader must agree for every sequence of sizes", "anchors": ["src/mg/media/tsmux.h: TSMux::add_sample", "src/mg/media/ts.h", "src/mg/media/tsparse.h", "src/mg/media/tsinfo.cpp: TS2MP4H264, TS2MP4AAC"]}
{"id": "C103", "title": "The program tables are read", "statement": "From every transport stream the reader finds the programs and, for the program whose map comes first, all elementary streams with their types and pids, whatever descriptors, versions and number of packets the tables have, and makes one receiver per stream.", "quantifier": "every program association and map table, every division into packets, every interleaving with other packets", "why_tests_cant": "nested lengths and the number of bytes collected so far decide when a table is complete", "anchors": ["src/mg/media/ts.h: psi, ProgramAssociationTable, ProgramMapTable", "src/mg/media/mp4/mpeg2ts.fl: BaseSection, Program_Association_Section, Program_Map_Section", "src/mg/media/tsparse.h: CTSProcessor::process"]}
{"id": "C104", "title": "Packets reach the receiver of their pid", "statement": "After the tables every packet of an announced pid is handed to the receiver of that pid, once and in order, and to no other; packets of other pids, repeated tables and erroneous packets change nothing.", "quantifier": "every sequence of packets of any number of pids", "why_tests_cant": "every packet could be any of several kinds depending on what came before", "anchors": ["src/mg/media/tsparse.h: CTSProcessor::process"]}
{"id": "C105", "title": "Fragments are read back", "statement": "Every sample of every fragment in a file of media segments is handed on once, in order, with exactly its bytes (in the clear), its duration and the times that follow from the base time of its fragment; what the program wrote as fragments comes back as it went in, and reading ends on every file.", "quantifier": "every file of segments, any number of fragments and samples, clear and encrypted, every time scale", "why_tests_cant": "state is kept from one fragment to the next, and boxes can come in any number and order", "anchors": ["src/mg/media/MOOFReader.h: MOOFReader", "src/mgcli/mp4info.cpp: do_moof_mux"]}
{"id": "C106", "title": "Samples are decrypted as the standard says", "statement": "Decrypting a sample with the key gives the sample that was encrypted according to ISO/IEC 23001-7 (cenc) with its vector and sub-samples.", "quantifier": "every sample, every list of sub-samples, every vector and key", "why_tests_cant": "the key stream goes on over the clear parts, at any alignment", "anchors": ["src/mgcli/mp4info.cpp: decrypt"]}
{"id": "C107", "title": "The command line says what was given", "statement": "After process, the values of every command (get_value, get_command_count, command_specified) are exactly those given for it on the command line, by its name or its shortcut, with one or two dashes, behind ':' or '=', in order; a switch without a value has the value T; everything else on the line changes nothing.", "quantifier": "every table of commands, every command line of any length", "why_tests_cant": "how an argument is read depends on the table and on the arguments before it", "anchors": ["src/mg/cmdline.h: console_command::process", "src/mg/cmdline.h: get_value, get_command_count, command_specified", "src/mgcli/mp4info.cpp: _tmain"]}
{"id": "C108", "title": "Missing parameters are noticed", "statement": "process returns true exactly if every required command has been given; otherwise the error message names the first one (by name) that is missing.", "quantifier": "every table of commands, every command line", "why_tests_cant": "depends on all arguments together", "anchors": ["src/mg/cmdline.h: console_command::process", "src/mg/cmdline.h: console_command::get_error_message"]}
{"id": "C109", "title": "Numbers and truth values of parameters", "statement": "get_integer64_value and get_integer_value tell the number whose decimal text was given, a text that does not begin with a number is an exception; exactly 1, true, yes, TRUE and True are true.", "quantifier": "every text, every 64-bit number", "why_tests_cant": "all texts and numbers", "anchors": ["src/mg/cmdline.h: console_command::get_integer64_value", "src/mg/alxstring.h: CstringT::operator int64_t, CstringT::operator bool, to_type"]}
{"id": "C110", "title": "Joining and cutting keeps the samples", "statement": "When a file, or the part of it between two times, is added to a muxer, every stream of the muxer is given exactly the samples of that part (of a whole file: all), once, in order, with their bytes, sync flag and duration.", "quantifier": "every file, every number and interleaving of tracks, every pair of times, every list of files added before", "why_tests_cant": "which samples come depends on sync samples, composition order and the interleaving of the file", "anchors": ["src/mg/media/mp4edit.cpp: CMP4EditBase::do_edit_mux", "src/mg/media/mp4edit.h: CMP4Edit_::Add", "src/mgcli/mp4info.cpp: do_mp4_mux"]}
{"id": "C111", "title": "Files added one behind the other follow each other", "statement": "In every file added all streams move by the same amount; no stream begins before its part of the file before has ended and one begins exactly there; the first file begins at 0; decoding times do not go back and no sample is decoded after it is presented.", "quantifier": "every list of files and ranges", "why_tests_cant": "ends and starts of all streams of all files decide together", "anchors": ["src/mg/media/mp4edit.cpp: CMP4EditBase::do_edit_mux", "src/mg/media/MediaJoin.h: CMediaJoin"]}
{"id": "C112", "title": "Only files that fit are joined", "statement": "When files are joined, each has the streams of the first: as many, of the same kind in the same order, with the same parameter sets or audio parameters; a file whose streams fit is not refused.", "quantifier": "every list of files, every list of streams in each", "why_tests_cant": "any stream of any file can be the one that differs", "anchors": ["src/mg/media/mp4edit.cpp: CMP4EditBase::do_edit_mux, do_edit_header_mux"]}
{"id": "C113", "title": "Decoding times are made from presentation times", "statement": "For a stream given without decoding times the writer finds decoding times that increase, lead no sample to be decoded after it is presented (with the composition offset it adds, the smallest that does), and span exactly the presentation; with a constant frame rate they are equally spaced.", "quantifier": "every sequence of presentation times, in every order of coding", "why_tests_cant": "depends on the order of all presentation times of the stream", "anchors": ["src/mg/media/mp4write.h: CMP4Stream::compute_auto_decoding_time, get_auto_decoding_duration", "src/mg/media/mp4write.h: MP4Write::compute_auto_decoding_time"]}
{"id": "C114", "title": "The streams of a written movie stay together", "statement": "In the finished file all samples of all streams are shown at their composition time plus one delay common to all streams, up to the resolution of the time scales; the times can be computed by a reader from the tables and edit lists of the tracks.", "quantifier": "every number of streams, every presentation and decoding time, both ways of delaying a stream", "why_tests_cant": "starts and offsets of all streams decide together", "anchors": ["src/mg/media/mp4write.h: MP4Write::level_start_time, min_stream_start_number, max_stream_ctts_offset", "src/mg/media/mp4write.h: CMP4Stream::write_edts, write_stts, write_ctts", "src/mg/media/mp4mux.h: MP4Mux::end", "src/mg/media/mp4parse.h: get_composition_time, get_stream_offset"]}
{"id": "C115", "title": "Requests given to the loop thread are served", "statement": "Every request queued on the loop thread gets its callback exactly once, without the help of loop_now; end() returns after all requests queued before it have been served; the exception a callback ends with is the one end() throws.", "quantifier": "every number of requests, every order of the two threads and of the answers of the disk, every time at which end is called", "why_tests_cant": "the result depends on the schedule of two threads and of the disk", "anchors": ["src/mg/core/uvbase.h: uvloopthread, uvloop", "src/mg/core/uvbase.cpp: uvloopthread::run"]}
{"id": "C116", "title": "HLS segments hold every sample once", "statement": "The segments cut out of a file at a list of times hold, for each stream, exactly the samples presented from the first time on and before the last, once each and in order.", "quantifier": "every file, every list of times, every stream", "why_tests_cant": "which samples fall into which segment depends on sync samples, composition order and rounding", "anchors": ["src/mg/media/tsinfo.cpp: do_hls_mux", "src/mg/media/tsmux.h: MP42HLS", "src/mg/media/mp4edit.cpp: CMP4EditBase::do_edit_mux"]}
{"id": "C117", "title": "HLS segments follow each other", "statement": "Played one behind the other, the segments of a file show every sample of every stream at its time in the file moved by one amount for all segments and streams.", "quantifier": "every file, every list of times", "why_tests_cant": "each segment computes its own time base from its first sample", "anchors": ["src/mg/media/tsmux.h: HLSMux::add_sample, set_composition_start_time", "src/mg/media/tsinfo.cpp: do_hls_mux", "src/mg/media/mp4edit.cpp: CMP4EditBase::do_edit_mux"]}
{"id": "C118", "title": "The PlayReady object describes itself", "statement": "The PlayReady object written into the pssh box and the manifest has its own length in its length field, one record of type 1 of the announced length, and nothing after it; the record is the UTF-16 text of the rights management header.", "quantifier": "every key, key id and license address, every platform", "why_tests_cant": "a length that is wrong shows only in another vendor's player", "anchors": ["src/mgcli/cenc_provider.h: PlayReadyCencProvider", "src/mg/core/bitstream.h: _little_putbits"]}
{"id": "C119", "title": "The PlayReady header names key and address", "statement": "The KID element of the header stands for the key id in Microsoft's byte order, the CHECKSUM element is the one of this key and key id, the LA_URL element is the license address given by the user, and the header is well-formed.", "quantifier": "every key, key id and license address", "why_tests_cant": "all addresses; byte order is only visible with key ids that are not symmetric", "anchors": ["src/mgcli/cenc_provider.h: PlayReadyCencProvider, binary_encode_kid, Checksum"]}
{"id": "C120", "title": "Manifest and file signal the same DRM data", "statement": "The ContentProtection elements of the manifest carry the key id as UUID and, in Base64, exactly the PlayReady object or pssh box that is in the initialization segment, with the system ids of the three DRM systems; the pssh boxes of several systems are read one after the other.", "quantifier": "every key id, every body given for Widevine, every combination of systems", "why_tests_cant": "all key ids and bodies of every length", "anchors": ["src/mgcli/cenc_provider.h: kid_to_string, add_pssh, add_ContentProtection, Base64", "src/mg/media/mp4/cenc.fl: ProtectionSystemSpecificHeaderBox", "src/mgcli/mp4info.cpp: do_dynamic"]}
{"id": "C121", "title": "A pssh box is read and written unchanged", "statement": "A pssh box read from a file and written again is the same box.", "quantifier": "every version, flags, list of key ids and data", "why_tests_cant": "lists of any length", "anchors": ["src/mg/media/mp4/cenc.fl: ProtectionSystemSpecificHeaderBox"]}
{"id": "C122", "title": "Printing a PlayReady box shows its records", "statement": "Printing a pssh box of PlayReady shows the kind and text of each of its records and reads only data of the box.", "quantifier": "every PlayReady object, every platform", "why_tests_cant": "reading outside of the data goes unnoticed", "anchors": ["src/mgcli/mp4info.cpp: BOX_FUNCTION(pssh)"]}
{"id": "C123", "title": "The clear key license file names the key", "statement": "The license file written for clear key encryption is the JSON key set of the W3C: it names the key id and the key in Base64 for addresses without padding.", "quantifier": "every key and key id", "why_tests_cant": "all keys; which characters and padding occur depends on the key", "anchors": ["src/mgcli/cenc_provider.h: ClearKeyCencProvider::json_key", "src/mgcli/stdafx.h: ATL_BASE64_FLAG_NOPAD"]}
{"id": "C124", "title": "A media segment holds the samples of its time window", "statement": "A DASH or Smooth Streaming media segment made from a file for a track and a time range is a well-formed fragment that holds exactly the samples of the track presented in the range, in order, byte for byte as in the file (after decryption if a key was given), with the sequence and track number asked for.", "quantifier": "every file, track, range, key and time scale", "why_tests_cant": "depends on sample tables, groups of pictures, offsets and every length field together", "anchors": ["src/mg/media/mp4fragmented.h: add_frames_to_m4f, produce_m4f_chunk", "src/mg/media/mp4parse.h: MP4Reader::moov_move, moov_next, read_bytes"]}
{"id": "C125", "title": "A player shows a media segment at its time", "statement": "A player that follows the base media decode time, durations and composition offsets of the segment presents its first sample at the time the segment is named after and every other sample at the distance it has from the first in the source.", "quantifier": "every file, track and range, constant and variable frame rates, with and without reordering", "why_tests_cant": "rounding accumulates over any number of samples", "anchors": ["src/mg/media/mp4fragmented.h: add_frames_to_m4f, produce_m4f_chunk, set_baseMediaDecodeTime"]}
{"id": "C126", "title": "The segments of a stream are the whole stream", "statement": "The segments made for the times of a playlist hold together every sample of the track once and in order; a segment across two files holds the samples of the first file and then those of the second.", "quantifier": "every list of times, every file and pair of files", "why_tests_cant": "a sample lost or doubled at a boundary depends on the times of all samples around it", "anchors": ["src/mg/media/mp4fragmented.h: produce_m4f_chunk, produce_m4f_chunk_cross", "src/mgcli/mp4info.cpp: do_dynamic"]}
{"id": "C127", "title": "A movie file gives back the samples that were added", "statement": "The file made by the muxer exists and is read by any reader that follows ISO/IEC 14496-12 strictly as one track per stream, whose samples are exactly those added to the stream (less those still queued), once each and in order, byte for byte, with key frame flag, composition offset, and decoding times that do not drift from those given.", "quantifier": "every number of streams, every sequence of samples added to them in every interleaving, every distance of interleaving, every time scale", "why_tests_cant": "the place of a sample follows from four tables together whose entries depend on all samples, and from the length of the header that holds them", "anchors": ["src/mg/media/mp4mux.h: MP4Mux::start, end, flush_all", "src/mg/media/mp4write.h: MP4Write::add_sample, write_moov, rebase_streams", "src/mg/media/mp4write.h: CMP4Stream::write_stream, write_stbl, write_stts, write_ctts, write_stsc, write_stsz, write_stco, write_stss"]}
{"id": "C128", "title": "A movie file gives back the parameters of its streams", "statement": "A strict reader finds for every stream track number, time scale, language, kind of media, dimensions or channels and rate, the exact decoder configuration, for an encrypted stream scheme, vector size and key identifier with the clear description second, and for a stream that begins late an empty edit of that length.", "quantifier": "every number of streams with all their parameters", "why_tests_cant": "nested boxes whose lengths depend on everything inside; all parameter values", "anchors": ["src/mg/media/mp4write.h: CMP4Stream::write_stream, write_stsd, write_edts, write_protected_sinf", "src/mg/media/mp4write.h: CMP4VisualStream::write_stream_entry, CMP4AudioStream::write_stream_entry", "src/mg/media/mp4/mp4.fl: VisualSampleEntry, AudioSampleEntry, TrackHeaderBox, MediaHeaderBox, HandlerBox, EditListBox"]}
{"id": "C129", "title": "The headers of a movie tell its duration", "statement": "The duration of media and track headers is the time all samples of the track take, that of the movie header the time of the longest track.", "quantifier": "every sequence of samples in every stream", "why_tests_cant": "depends on first, last and order of the samples of all streams", "anchors": ["src/mg/media/mp4write.h: CMP4Stream::get_duration, write_stream, MP4Write::min_duration, write_moov"]}
{"id": "C130", "title": "The initialization segment describes the fragments", "statement": "The initialization segment made for a stream is read by a player as one track without samples; its number, the number its fragments inherit and announce, and time scale are those given; sample description 1 carries the decoder configuration and the protection with the key identifier; the boxes for the key systems are in it unchanged and in order; the duration is the one given.", "quantifier": "every kind of stream, track number, time scale, duration, key identifier, list of pssh boxes", "why_tests_cant": "nested boxes whose lengths depend on everything inside; all parameter values", "anchors": ["src/mg/media/mp4fragmented.h: produce_m4f_initialization", "src/mg/media/mp4write.h: MP4Write::write_ftyp, write_moov", "src/mg/media/mp4/mp4_fragments.fl: MovieExtendsHeaderBox, TrackExtendsBox", "src/mg/media/mp4/cenc.fl: ProtectionSchemeInfoBox, TrackEncryptionBox"]}
{"id": "C131", "title": "Time codes are words of digits and add up", "statement": "A time code turned into its word shows its eight decimal digits and gives the same time code when turned back, and so does every word of decimal digits; adding time codes, adding a time and counting on by one frame add the numbers of frames modulo one day.", "quantifier": "every time code, every word of digits, every time", "why_tests_cant": "carries over four fields; all combinations", "anchors": ["src/mg/media/WaveParser.h: TC(uint32_t), TC::operator uint32_t, TC::operator+, TC::operator++, TC::SumHnano, TC(int64_t)"]}
{"id": "C132", "title": "Time codes are subtracted", "statement": "The difference of two time codes is the time code whose number of frames is the difference of theirs.", "quantifier": "every pair of time codes, every platform", "why_tests_cant": "borrows over four fields; the size of long", "anchors": ["src/mg/media/WaveParser.h: TC::operator-"]}
{"id": "C133", "title": "A time code track gives back the time code of every frame", "statement": "When a stream of time codes is written, only those that do not follow from the one before are stored; asked at the time of any frame, the file answers the time code that was given for it.", "quantifier": "every history of time codes with any number of breaks, every time scale, every frame", "why_tests_cant": "which codes are stored and from which an answer is computed depends on all breaks", "anchors": ["src/mg/media/mp4write.h: CMP4LTCStream::queue_sample", "src/mg/media/mp4parse.h: MP4Reader::get_interpolated_time_code, CPM4LTCTrack", "src/mg/media/mp4/ltcextension.fl: wmt_timecode"]}
{"id": "C134", "title": "Linear time code words are found and read", "statement": "In a sequence of linear time code words a word is found exactly when its last bit has come in, whatever the user bits and flags are, and the time code read is its own; a word is also found after anything else.", "quantifier": "every sequence of words with all user bits and flags, every prefix, every state of the registers", "why_tests_cant": "2^80 words; a pattern across two words could look like the sync word", "anchors": ["src/mg/media/WaveParser.h: CTimeCode::push, __shift_t_code, IsValid, GetTimeCode, DecodeUnits, Decode3Tens, Decode6Tens"]}
{"id": "C135", "title": "The bi-phase mark signal is decoded", "statement": "From half bit cells coded as bi-phase mark every bit is recovered, with either polarity; a reader out of step gets into step at the first zero and stays there.", "quantifier": "every sequence of bits, every level, every state of the reader", "why_tests_cant": "sequences of any length", "anchors": ["src/mg/media/WaveParser.h: CTimeCode::push_biphase"]}
{"id": "C136", "title": "The reader opens every file of the writer", "statement": "Every movie file made by the muxer is opened by the program's own reader, from its bytes, without exception or endless loop, and gives back units and duration of the movie and, for every stream in order, number, units, language, kind, dimensions, delay of the start, and the sample entries with the exact decoder configuration.", "quantifier": "every history of samples in every number of streams with all their parameters, every file the writer makes of it", "why_tests_cant": "the parser follows nested boxes and tables whose lengths depend on all samples", "anchors": ["src/mg/media/mp4parse.h: MP4Reader::parse, CPM4Track::parse_boxes, CMP4Handler::parse, CMP4VisualEntry::parse, CMP4AudioEntry::parse", "src/mg/media/mp4parse.h: parse_stts, parse_ctts, parse_stss, parse_stsc, parse_stsz, parse_stco, parse_elst", "src/mg/media/mp4/mp4.fl: Box, HandlerBox, TrackHeaderBox, MediaHeaderBox", "src/mg/media/mp4mux.h: MP4Mux::end"]}
{"id": "C137", "title": "What was muxed is what is read", "statement": "Opening a movie file made by the muxer and reading it to the end delivers, for every stream, exactly the samples that were added, once each and in order, less those still queued: bytes, key frame flags, decoding and composition times.", "quantifier": "every history of samples in every number of streams and every interleaving", "why_tests_cant": "writer, file format, parser and reading loop together; any length", "anchors": ["src/mg/media/mp4parse.h: MP4Reader::parse, next_file_chunks", "src/mg/media/mp4mux.h: MP4Mux::add_sample, end", "src/mg/media/mp4write.h: MP4Write::add_sample, write_moov"]}
{"id": "C138", "title": "Opening a file comes to an end", "statement": "Opening a file ends after a number of steps bounded by its length: with the tracks of the file, or with an exception.", "quantifier": "every sequence of bytes", "why_tests_cant": "damaged files are of every kind; a loop that never ends cannot be seen by a test that passes", "anchors": ["src/mg/media/mp4parse.h: MP4Reader::parse_boxes, CPM4Track::parse_boxes, CMP4::do_box, skip_current, set_position"]}
{"id": "C139", "title": "Boxes that are not known are passed over", "statement": "A box of a kind the reader does not know is passed over whatever its size, form and content are, and the box behind it is read next.", "quantifier": "every type, size and content, both forms of the size", "why_tests_cant": "all kinds of boxes and sizes", "anchors": ["src/mg/media/mp4parse.h: CMP4::skip_current, MP4Reader::unknown_box", "src/mg/media/mp4/mp4.fl: Box"]}
{"id": "C140", "title": "Corrected audio times always go up", "statement": "With the AAC correction on, the frames of an audio stream begin 1024 or 1025 audio samples after each other or, after a hole, at the time given; the times in the file increase strictly, and decoding and composition times stay equal.", "quantifier": "every sequence of times given to the writer, every sample rate", "why_tests_cant": "the time of a frame depends on all frames before it", "anchors": ["src/mg/media/aac_time_fix.h: CAACFixStream::fix_audio_frequency_timing", "src/mg/media/mp4mux.h: MP4Mux::add_sample"]}
{"id": "C141", "title": "The correction removes rounding", "statement": "If the times of an audio stream are exact up to less than one audio sample, the corrected times are the exact ones, from some frame on at most one audio sample later.", "quantifier": "every number of frames, every pattern of rounding, every sample rate", "why_tests_cant": "errors could add up over any number of frames", "anchors": ["src/mg/media/aac_time_fix.h: CAACFixStream::fix_audio_frequency_timing", "src/mg/media/mp4mux.h: MP4Mux::add_sample"]}
{"id": "C142", "title": "Corrected times stay close to those given", "statement": "A corrected time differs from the time given by no more than one frame.", "quantifier": "every sequence of times: holes, repeated times, other lengths of frames", "why_tests_cant": "needs long streams of special form", "anchors": ["src/mg/media/aac_time_fix.h: CAACFixStream::fix_audio_frequency_timing"]}
{"id": "C143", "title": "Audio segments run on across files", "statement": "The audio of a list of files is cut into segments as if the samples of all files were one behind the other: every segment has as many samples as go into the fragment length, a segment across two files names the first sample from each, and samples that do not fill a segment wait for the next file.", "quantifier": "every number of files, each with any number of samples of any durations, delay and time scale", "why_tests_cant": "where a segment begins depends on the sample counts of all files before", "anchors": ["src/mg/media/mp4dynamic.cpp: CMP4DynamicDiscreate::publish_no_random_stream", "src/mg/media/mp4parse.h: CPM4Track::get_sample_duration, get_composition_sample_number", "src/mg/media/mp4dynamic.h: CMP4DynamicDiscreate"]}
{"id": "C144", "title": "The search for audio segments ends", "statement": "Publishing the segments of an audio stream comes to an end without exception, whatever part of the file is used and whatever the fragment length is.", "quantifier": "every file, start and fragment length", "why_tests_cant": "a loop that never ends cannot be seen by a test that passes", "anchors": ["src/mg/media/mp4dynamic.cpp: CMP4DynamicDiscreate::publish_no_random_stream"]}
{"id": "C145", "title": "No sample is left out of the audio segments", "statement": "Every audio sample of every stream and file lies in the segment of its own stream that its number tells.", "quantifier": "every number of files and streams with any number of samples", "why_tests_cant": "short files and several streams in all combinations", "anchors": ["src/mg/media/mp4dynamic.cpp: CMP4DynamicDiscreate::publish_no_random_stream"]}
{"id": "C146", "title": "The published segments hold the whole file", "statement": "The media segments written for a file hold every sample of every stream from the start asked for on, once and in order.", "quantifier": "every file, every fragment length", "why_tests_cant": "what is lost at the end depends on the number of samples and the places of key frames", "anchors": ["src/mg/media/mp4dynamic.cpp: CMP4DynamicDiscreate::publish_no_random_stream", "src/mg/media/mp4dynamicinfo.h: CMP4DynamicInfo::publish_segmented_composition", "src/mgcli/mp4info.cpp: loop over the points of a stream"]}
{"id": "C147", "title": "The segment starts of video are its key frames", "statement": "The segments of a video track begin at the last key frame decoded by the start asked for; every following key frame presented before the end is considered, in order and once; a segment starts at the first and at every one that is at least the fragment length less the tolerance after the previous start, at no other time; the search ends at the last key frame.", "quantifier": "every table of key frames and of times, every start, end, fragment length and tolerance", "why_tests_cant": "the walk keeps a place in the table between calls; all tables", "anchors": ["src/mg/media/mp4parse.h: CPM4Track::get_IFrame_number, get_next_IFrame_time, CMP4TimeManager::get_next_IFrame_number, CRangeMap::get_upper_limit", "src/mg/media/mp4dynamic.cpp: CMP4Dynamic::move_to_read, publish_composition"]}
{"id": "C148", "title": "The list of groups of pictures is complete", "statement": "The command that lists the groups of pictures shows, from the last key frame decoded by the start on, every key frame up to the end with its number, presentation and decoding time.", "quantifier": "every table of key frames and of times, every time scale, start and end", "why_tests_cant": "the look-up of the number moves the place of the walk", "anchors": ["src/mg/media/mp4parse.h: CPM4Track::get_IFrame_number, get_next_IFrame_time, CMP4TimeManager::get_next_IFrame_number, CRangeMap::get_upper_limit", "src/mgcli/mp4info.cpp: gop_list"]}
{"id": "C149", "title": "The listing of samples is complete", "statement": "The command that lists samples up to a time shows every sample of the stream asked for, or of all streams, decoded before that time.", "quantifier": "every file, any number of streams, every interleaving and end", "why_tests_cant": "where the listing stops depends on how the streams are interleaved", "anchors": ["src/mgcli/mp4info.cpp: pick_samples", "src/mg/media/mp4parse.h: MP4Reader::next_file_chunks"]}
{"id": "C150", "title": "The creation time of a movie", "statement": "The time of creation that is put into the movie, track and media headers depends on the date and time of the clock in UTC and on nothing else: it is the same number of seconds away from the seconds since 1904-01-01 of the file format for every date and every time zone.", "quantifier": "every date and time before the year 3000, every time zone", "why_tests_cant": "no test can try all dates and zones; the clock cannot be set by a test", "anchors": ["src/mg/media/mp4write.h: MP4NOW", "src/mg/core/nx/ctime.cpp: Ctime::Ctime, MilliSeconds, Seconds, total_seconds, sm_to_tm"]}
{"id": "C151", "title": "Dates as text", "statement": "The XML text of a time is its date, time of day, milliseconds and zone; a date read from text is printed as the same text.", "quantifier": "every date and time of day, every zone, every content of the memory before", "why_tests_cant": "all dates; uninitialized memory and the moment between two readings of the clock are not under the control of a test", "anchors": ["src/mg/core/nx/ctime.cpp: Ctime::ToXml, ToDateString, ToTimeString, get_MillisecondsString, ResetToNow"]}
{"id": "C152", "title": "The difference of two times", "statement": "The difference of two times in milliseconds, seconds, minutes, hours and days is the exact one rounded towards the past, also when the clock was set back in between.", "quantifier": "every pair of times", "why_tests_cant": "all pairs of times", "anchors": ["src/mg/core/nx/ctime.cpp: Ctime::MilliSeconds, Seconds, Minutes, Hours, Days"]}
{"id": "C153", "title": "All fragments given become part of the movie", "statement": "The command that makes a movie out of files with fragments adds, to the stream of each parameter S1, S2, ..., all samples of all its files, in order, and nothing else.", "quantifier": "any number of streams and files, any number of fragments", "why_tests_cant": "the streams take turns file by file; all numbers of files per stream", "anchors": ["src/mgcli/mp4info.cpp: do_moof_mux"]}
{"id": "C154", "title": "Packaging and joining again gives the stream", "statement": "Samples that were packaged into an initialization segment and fragments, in the clear or encrypted, and made into a movie again, come out of that movie, for every stream, as they went into the packager: bytes, order, times.", "quantifier": "every number of sound streams, files, fragments and samples, every key", "why_tests_cant": "seven components one behind the other: fragment writer, encryption, fragment reader, interleaving, movie writer, movie parser, reader", "anchors": ["src/mgcli/mp4info.cpp: do_moof_mux", "src/mg/media/mp4fragmented.h: CMP4Fragment", "src/mg/media/MOOFReader.h: MOOFReader", "src/mg/media/mp4mux.h: MP4Mux", "src/mg/media/mp4parse.h: MP4Reader"]}
{"id": "C155", "title": "The check of written fragments reports exactly the gaps", "statement": "With validation on, a message is printed for a sample of a stream if and only if it does not follow the sample of that stream written before it: samples missing in the middle, or at the end of a file, are reported, and files written completely are never reported.", "quantifier": "every sequence of fragments, files and up to 16 streams in any interleaving", "why_tests_cant": "what is reported depends on the whole history of all streams and files", "anchors": ["src/mgcli/fragment_validation.h: CMP4FragmentValidation", "src/mg/media/mp4fragmented.h: add_frames_to_m4f"]}
{"id": "C156", "title": "Picture parameter sets are read as the encoder wrote them", "statement": "Opening a file, or printing its decoder configuration, gives for the NAL unit of any picture parameter set of the H.264 syntax the values that are coded in it, with its extension, whatever is in memory behind it.", "quantifier": "every picture parameter set, with any number of slice groups and with or without an extension, every memory content", "why_tests_cant": "the syntax is a tree of variable length codes, whether an extension follows depends on the number of bits before it", "anchors": ["src/mg/media/mp4/h264.fl: pic_parameter_set_rbsp", "src/mg/media/mp4parse.h: add_picture_parameter_set", "src/mgcli/mp4info.cpp: print_avcc"]}
{"id": "C157", "title": "Slice headers are read as the encoder wrote them", "statement": "For each slice of a stream the header that is printed has the values coded in it (macroblock, type, frame number, field, order counts, reference picture numbers), for the parameter sets of the stream.", "quantifier": "every pair of parameter sets, every slice header, every content of the memory before", "why_tests_cant": "which fields are there depends on two parameter sets and on fields before; uninitialized memory is not under the control of a test", "anchors": ["src/mg/media/mp4/h264.fl: slice_header"]}
{"id": "C158", "title": "The listing of a sample shows each of its NAL units", "statement": "The listing of an H.264 sample has exactly one line for each NAL unit in it, in order: for slices the kind, the importance and the header, for SEI units the type and size of the first message, for the others the kind.", "quantifier": "every sample of any number of units of any size, lengths of 1, 2, 3 and 4 bytes, escape bytes anywhere", "why_tests_cant": "all lists of units", "anchors": ["src/mgcli/mp4info.cpp: parse_h264_header", "src/mg/media/mp4/h264.fl: sei_message", "src/mg/media/mp4/h264.fl: H264Nal"]}
{"id": "C159", "title": "Start, end and mean sample duration of a stream", "statement": "The start time shown for a stream of a movie is the earliest presentation time of its samples, the end time is the end of the sample presented last, and the mean sample duration is the time between divided by the number of samples.", "quantifier": "every table of durations and composition offsets, any number of samples", "why_tests_cant": "reordering moves the first and last presented sample to any place; all tables", "anchors": ["src/mg/media/mp4parse.h: CMP4TimeManager::get_start_time, get_end_time, get_end_time_plus_duration, add_ordered", "src/mg/media/mp4parse.h: CPM4Track::get_sample_duration", "src/mgcli/mp4info.cpp: pick_samples"]}
{"id": "C160", "title": "Decoding times of the ends of a stream", "statement": "The decoding start and end time of a stream are the decoding times of its first and last sample.", "quantifier": "every movie with any number of streams and samples", "why_tests_cant": "all tables; the answer depends on the number of streams", "anchors": ["src/mg/media/mp4parse.h: MP4Reader::get_decoding_start_time, get_decoding_end_time"]}
{"id": "C161", "title": "Every stream of a presentation has its own name and number", "statement": "The presentation made from a list of files has exactly the audio and video streams of the first file that can be parsed, numbered from 0 on in the order of the file and named video, video1, video2, ... and audio, audio1, audio2, ...; each is found under its number and under its name, also after any further files are added.", "quantifier": "every order and number of video, audio, time code and unreadable streams, any number of files added", "why_tests_cant": "names are made from counts; two equal names would silently lose a stream", "anchors": ["src/mg/media/mp4dynamicinfo.h: DynamicPresentation::AddVideoStream, AddAudioStream, get, get_by_index, CMP4DynamicInfo::video_private_data, audio_private_data", "src/mg/media/mp4dynamic.h: CMP4EmptyMux", "src/mg/media/mp4edit.cpp: do_edit_header_mux"]}
{"id": "C162", "title": "A segment comes from the file that was added for its time and bit rate", "statement": "For every stream, every bit rate of it and every time, the path returned is the first file with this bit rate of the Add call whose part of the presentation contains the time; a part begins where the stream ended before.", "quantifier": "every sequence of Add calls with any number of files and bit rates, every time", "why_tests_cant": "the answer depends on the whole history of files, points and ends", "anchors": ["src/mg/media/mp4dynamicinfo.h: CMP4DynamicInfo::begin_processing, end_processing, DynamicStream::get_path, get_current_end, DynamicBitrate::Add", "src/mg/media/mp4dynamic.cpp: CMP4Dynamic::Add"]}
{"id": "C163", "title": "Which Add calls are accepted", "statement": "Add calls are accepted if and only if each bit rate they list is one of the first call: for video any of those, for audio only the one of the first file of the first call; so a presentation whose files have different audio bit rates is always refused.", "quantifier": "every sequence of Add calls with any bit rates", "why_tests_cant": "all combinations of bit rates over any number of calls", "anchors": ["src/mg/media/mp4dynamicinfo.h: CMP4DynamicInfo::begin_processing, DynamicStream::get_bit_rate, AddBitRate"]}
{"id": "C164", "title": "Moving a presentation to start at zero", "statement": "If a segment of any stream starts before 0 all streams are moved by the same amount, otherwise none; then no segment starts before 0, durations stay, and every segment comes from the same file as before.", "quantifier": "every presentation built from any Add calls", "why_tests_cant": "all histories; the loop addresses streams by number", "anchors": ["src/mg/media/mp4dynamicinfo.h: DynamicPresentation::rebase, DynamicStream::rebase, DynamicBitrate::rebase, DynamicPoints::rebase"]}
{"id": "C165", "title": "Every input gets its own files and bit rates", "statement": "The publishing commands (kinds hls, ssf and dash) make one Add call for each input, with its start and end; its files are the input and the same number of further files for each input; one after the other the calls use all further files and all bit rates (given in kb/s), each once and in the order of the command line.", "quantifier": "every command line with any number of inputs, further files and bit rates", "why_tests_cant": "index arithmetic over lists of any length", "anchors": ["src/mg/media/tsinfo.cpp: do_hls_mux", "src/mgcli/mp4info.cpp: main (kinds ssf, dash)", "src/mg/cmdline.h: console_command::get_value, get_integer64_value, get_command_count"]}
{"id": "C166", "title": "Publishing refuses options that do not fit", "statement": "A publishing command whose options do not fit (an input without start or end, a file without bit rate, further files that cannot be shared out, something that is not a number, a missing language) ends with a code other than zero that says why, before anything is written; any other one is carried out; none makes the program crash.", "quantifier": "every command line", "why_tests_cant": "all counts and values of all options", "anchors": ["src/mg/media/tsinfo.cpp: do_hls_mux", "src/mgcli/mp4info.cpp: main (kinds ssf, dash)"]}
{"id": "C167", "title": "The languages of the audio streams", "statement": "Each audio stream is given the language of the command line, and different languages can be told apart.", "quantifier": "every list of languages", "why_tests_cant": "all lists of languages", "anchors": ["src/mgcli/mp4info.cpp: main (kinds ssf, dash), langs", "src/mg/media/mp4dynamic.h: dynamic_item"]}
{"id": "C168", "title": "The segments come from the files of the command line", "statement": "In the presentation that a publishing command makes, from the start of an input up to the start of the next one each audio segment comes from this input and each video segment from the file of this input that has the bit rate of the segment; a presentation is made if and only if every bit rate of every input is one of the first input.", "quantifier": "every command line, all streams, times and bit rates, whatever is found in the files", "why_tests_cant": "joins the reading of the command line with all histories of Add calls", "anchors": ["src/mg/media/tsinfo.cpp: do_hls_mux", "src/mgcli/mp4info.cpp: main (kinds ssf, dash)", "src/mg/media/mp4dynamicinfo.h: CMP4DynamicInfo, DynamicStream::get_path"]}
{"id": "C169", "title": "The bit rate reported for a stream", "statement": "The bit rate shown for a stream of a movie (and given to the writer when movies are cut or joined) is the number of bits of its samples divided by its length in seconds.", "quantifier": "every table of sample sizes, every length and time scale", "why_tests_cant": "products and divisions of 32 and 64 bit numbers, all values", "anchors": ["src/mg/media/mp4parse.h: CMP4SampleManager::parse_stsz", "src/mg/media/mp4parse.h: CPM4Track::get_trak_bit_rate, get_trak_duration", "src/mg/media/mp4/mp4.fl: MediaHeaderBox::get_duration_hns", "src/mg/media/mp4edit.cpp: bit_rate"]}
{"id": "C170", "title": "Keys converted between hexadecimal text and base64", "statement": "mg -k:hex64 shows the base64 text of the bytes of a hexadecimal key, mg -k:64hex the hexadecimal text of the bytes of a base64 key (characters that are not base64 are skipped); one after the other they give back the same key, and neither reads or writes outside of its memory.", "quantifier": "every key in either form", "why_tests_cant": "keys of any length and content; the codecs keep state over the whole text", "anchors": ["src/mgcli/mp4info.cpp: main (kinds hex64, 64hex)", "src/mgcli/cenc_provider.h: PlayReadyCencProvider::Base64", "src/b64/src/cdecode.cpp: base64_decode_block"]}
{"id": "C171", "title": "Every video bit rate is described by its own file", "statement": "In a presentation each video bit rate has the parameter sets and the picture size of the file added for it: the initialization segment is made with exactly these parameter sets, and the Smooth Streaming manifest shows exactly these, each behind a start code; the codec name has their profile and level.", "quantifier": "every set of first files, streams, bit rates and parameter sets", "why_tests_cant": "bytes with lengths in them are written and read at three places; all contents and lengths", "anchors": ["src/mg/media/mp4dynamic.h: compute_video_private_data", "src/mg/media/mp4dynamicinfo.h: CMP4DynamicInfo::begin_processing, DynamicStream::AddBitRate, SSFRenderer::add_video_bitrate", "src/mg/media/mp4write.h: MP4Write::add_visual_stream"]}
