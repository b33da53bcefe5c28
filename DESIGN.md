# Formal model of mediagoom/mg in Lean 4 — design

Source: `/repo` at the pinned commit (C++; `.fl` files are Flavor descriptions from which headers are generated).
Lean project: `/verif/lean`. Modules live in `lean/Verif/`, all imported by `lean/Verif.lean`.

## Layout

For each area `X`:

* `Verif/X/Model.lean` (and further model files) – the model, function by function; every definition cites file and lines in `/repo` and says
  where it simplifies.
* `Verif/X/Spec.lean`  – the small independent specification used by the property theorems (when the
  statement cannot be written with standard library notions directly).
* `Verif/X/Lemmas.lean` – helper lemmas.
* `Verif/X/Props*.lean` – the property theorems, non-vacuity examples beside each of them.

Where the code does not have a property, there is a *witness* theorem (a concrete run of the model on which the property fails, or a general
theorem that it always fails) and a `_partial` theorem for the inputs on which it holds.

## Trusted base

* Lean 4.33.0 kernel. Axioms: at most `propext`, `Classical.choice`, `Quot.sound`; `Verif/Axioms.lean` has a `#print axioms` for every
  theorem named in the manifest.
* No axioms of our own, no `native_decide`, no `bv_decide`.
* The reading of the C++ code: the model is hand written from the cited lines; nothing is compiled or run. C++ integers are modelled by
  machine words or by `Nat`/`Int` with the wrap-around written out where the theorem does not exclude it by a hypothesis.
* External calls are parameters (AES block function, time scaling done in floating point, storage devices, memory contents of fresh blocks);
  what is assumed of them is an explicit hypothesis of the theorem.
* The specifications in the `Spec.lean` files (for example: the DASH, HLS and ISO BMFF reading rules) are our reading of the standards.


## Approach per property

For each property: the module that models the code, the status, and what is assumed or missing. The approach of each module is in the next section.

| id | property | module | status | remark |
|----|----------|--------|--------|--------|
| C01 | Base64 round trip | Base64 | proved | all block cuts on both sides |
| C02 | Base64 is RFC 4648 and streaming is transparent | Base64 | proved |  |
| C03 | Base64 decoder stays inside its table and ignores foreign characters | Base64 | partial | False of the code for exactly one character, '{' (123): table overrun (base64_decode_table_overrun). Proved for every text without it. |
| C04 | Bit fields written are the bit fields read | BitStream | proved | widths 1..32; width 0 at a byte boundary is a shift by 32 (undefined in C++) and excluded |
| C05 | Bit writer produces exactly the big-endian bit string | BitStream | proved |  |
| C06 | Bit writer never touches memory beyond its buffer | BitStream | partial | False of the code: 32 bit read-modify-write at the end of the buffer touches up to 3 bytes behind it (bitwriter_oob_witness). Proved: never more than 3 bytes, and their values are written back unchanged. |
| C07 | Growing buffer keeps everything appended | Buffer | proved |  |
| C08 | Box sizes describe the tree | Box | proved | boxes below 4 GiB (the 32 bit size field cannot represent more) |
| C09 | stsc written describes the chunks | Tables | proved |  |
| C10 | Every sample is found where it was written | Tables | partial | Proved when at least two samples differ in size (otherwise the stsz written has no sizes, see C13) and offsets fit 32 bits. |
| C11 | stts written gives back the decoding times | Tables | partial | A single sample gives a wrong table (witness). For two or more samples: the table has one duration per sample; exact times when the time scale divides 10^7, bounded error otherwise, with a witness for real drift. |
| C12 | ctts written gives back the composition offsets | Tables | proved |  |
| C13 | stsz written lists every sample size | Tables | partial | False when all samples have the same size: the table then carries neither a common size nor the sizes (witness). |
| C14 | Interleaving loses nothing and keeps order | Interleave | proved |  |
| C15 | Ending a mux writes everything | Interleave | partial | False with several streams: end() does not write what is still queued (witness). Proved for single stream files. |
| C16 | Transport stream packets are 188 bytes and carry the payload | Ts | partial | False for random access payloads of exactly 181 bytes (175 with PCR): foreign memory is appended and the flag lost (second theorem, for all such payloads). Proved for all other sizes. |
| C17 | Continuity counters are continuous | Ts | proved |  |
| C18 | Time stamps survive the 33 bit split | Pes, Ts | proved | times below 2^62; PCR not for the size excluded in C16 |
| C19 | PES length field is right | Pes | partial | False for bodies just below 65535 bytes, where header plus body overflow the 16 bit field (witness). |
| C20 | Section CRC is MPEG CRC-32 | Crc | proved | all buffers, all alignments |
| C21 | CENC counter is a big-endian 128 bit increment | Cenc | proved | The 64 and 128 bit counters as big-endian numbers, for every value (HAVE_LIBGYPAES build). |
| C22 | CENC sub-sample layout covers the sample | Cenc | proved | For every sample size, with and without sub-sample encryption. |
| C23 | CENC decryption with the recorded IV gives back the sample | Cenc | proved | For every list of samples and every block cipher E (AES itself is library code); a player's decryption is specified byte by byte in Verif.Cenc.Spec. |
| C24 | No key stream block is used twice in a fragment | Cenc | proved | No counter block is used twice for one key within a fragment sequence. |
| C25 | HLS segment encryption is invertible PKCS7 CBC | HlsCrypt | proved | every invertible block cipher; sequence numbers below 2^31 |
| C26 | MPD segment timeline expands to the published points | Render | proved | The whole manifest is lexed and parsed as XML and read by the DASH rules; non-empty streams, values below 2^63. |
| C27 | HLS durations are printed correctly | Render | partial | Exact characterisation: right if and only if the duration is a whole number of seconds (the fraction is taken modulo 10^6 instead of 10^7 and not padded). |
| C28 | Rendered points tile the time line | Dynamic | proved |  |
| C29 | A time is served from the file that covers it | Dynamic | proved |  |
| C30 | get_closest returns a nearest point | Dynamic | partial | False for an index with one point (iterator passes the end); proved for two or more. |
| C31 | Joining files keeps streams in sync without overlap | Dynamic | proved |  |
| C32 | Ring queue is FIFO | Queue | proved | Both modes; a refused push in drop mode empties the queue (the specification says so). |
| C33 | Grow queue never drops | Queue | proved | Contents under 512 MB and every allocation succeeds. |
| C34 | Range map finds the covering run | RangeMap | proved |  |
| C35 | Split and join are inverse | Strings | proved | For every non-empty separator; the last theorem shows the call does not return for an empty one. |
| C36 | Hex text round trip | Strings | proved | The last theorem shows that text that is not hexadecimal is accepted. |
| C37 | Shared resource is released exactly once | Resource | partial | Proved for programs whose assignments keep the right hand side alive; self assignment of the only handle and h = h->next use deleted memory (witnesses). |
| C38 | Promise delivers the value once | Promise | partial | Proved for any chain and any interleaving of attaching with the result when error handlers do not throw and the value is not null. False for a null value, for promises forwarded after the value came, for a second error handler and for error handlers that throw, as the default one does (witnesses). |
| C39 | Event wait is not lost | Event | partial | The flag is read and written without the mutex: a signal between the look at the flag and the sleep is lost, of several waiting threads one wakes, and a spurious wake up returns (witnesses). Proved: a wait that begins after signal() returned never sleeps; one waiting thread whose window signal() does not hit is woken. |
| C40 | NAL emulation prevention is removed | H264 | partial | False for every payload that ends in the byte 3, which is removed (nal_loses_last_three); proved for all others; decoding in place gives the same bytes for every unit. |
| C41 | Exp-Golomb decoding | H264 | partial | Unsigned codes below 2^31 - 1 and signed ones up to 2^23 (the code goes through int and float); witnesses outside. |
| C42 | Length prefixed NAL units become start-code NAL units | TsMux | proved |  |
| C43 | MPEG-4 descriptor lengths | Esds | partial | Lengths below 2^28 (2^28 is written as 0, length_witness); every form of a length below 2^31 is read. |
| C44 | 100 ns times decompose and recompose | Clock | proved |  |
| C45 | Fragments partition the samples | Reader | partial | Proved for every track without composition offsets and sync table at all times; for video at beginnings of closed groups. False for open groups (leading pictures lost), sync samples closer than the composition delay, and video with an edit list (witnesses). |
| C46 | Fragment data offsets point at the sample data | Fragment | proved | segments below 2^31 bytes; the reader locates the data through the data offset and sizes and finds exactly the media data box |
| C47 | copy_stream copies the stream | FileAsync | partial | For asynchronous files, every schedule. Without an end position the source is copied exactly; with one the number of bytes is rounded up to whole chunks (copy_exact), so that more than asked for is copied (copy_overshoots). |
| C48 | Signed bit fields are sign extended | BitStream | proved |  |
| C49 | Reader does not depend on memory after the data | BitStream | proved | single memory block reader |
| C50 | Little-endian fields round trip | BitStream | proved |  |
| C51 | Memory storage is a file | Buffer | proved |  |
| C52 | Buffered stream over memory is a byte file | Box | proved |  |
| C54 | Chunk of a sample is found for every table | Tables | proved |  |
| C55 | Decoding times read from a table are running sums | Tables | proved |  |
| C56 | Sample at a decoding time | Tables | proved |  |
| C57 | Sync flags survive | Tables | partial | False for a video stream without any sync sample (witness); proved for every other stream. |
| C58 | Composition times and presentation order | Tables | partial | False when a later sample is presented before the first one (witness: array underrun); proved for all other tables. |
| C59 | Sample at a composition time | Tables | partial | False for times after the last composition time (witness: sample 0); proved for all times from first to last under the C58 condition. |
| C60 | add_sample returns and bounds buffering | Interleave | proved |  |
| C61 | Program tables describe the streams | Ts, TsMux | partial | False at the muxer when a time code stream is added before another stream (witness). Proved for all other orders, and for the table writer itself. |
| C62 | A receiver gets back what was muxed | TsMux | partial | Excludes key samples whose PES packet has exactly 181 (175) bytes, where it is false (witness). |
| C63 | Audio samples become ADTS frames | TsMux | proved | frames below 8192 bytes, parameters with an MPEG-4 code |
| C64 | HLS segments keep one time base | TsMux | proved |  |
| C65 | A media fragment reads back as the samples that were added | Fragment | proved | The conversion to other time scales than 10 MHz (double arithmetic) is an arbitrary function; fragment_times is the 10 MHz case. |
| C66 | The segment index describes the fragment that follows | Fragment | partial | True while the presentation time fits 32 bits (429 s at 10 MHz); false for every later fragment (second theorem). |
| C67 | A player can decrypt encrypted HLS segments | HlsCrypt | partial | False for every segment: the sequence number is incremented before the segment is encrypted, so the first 16 bytes decrypt wrongly (witness, for all contents). Proved: all other bytes are right. |
| C68 | A segment ends where the next one starts | Dynamic | partial | False before a segment that lies across two files, and cross points keep their old times after a rebase (witnesses); proved for ordinary points. |
| C69 | Segment starts are spaced by the fragment length | Dynamic | proved |  |
| C70 | A DASH client asks for the files that were written | Render | proved |  |
| C71 | Representation identifiers are unique | Render | partial | False for an audio stream with two bitrates (witness). |
| C72 | Announced codecs are the codecs of the media | Render | partial | The compatibility flags are printed wrongly, so the name is right if and only if they are 0 (codec_name_partial); the assignment of codecs to representations is right for all presentations. |
| C73 | HLS playlist lists the segments of its bitrate | Render | proved | one video stream; two video streams are a defect, see C76 |
| C74 | HLS playlist is playable | Render | partial | False when the first segment is not the longest or is rounded down, and when a stream follows the video stream (witnesses). |
| C75 | HLS playlist refers to the files written | Render | partial | The files are always named video_…; false for other stream names (witness). |
| C76 | HLS master playlist lists all variants | Render | partial | Proved for one video stream with any number of bitrates; false for two (witness). |
| C77 | Smooth Streaming manifest describes the presentation | Render | proved |  |
| C78 | Smooth codec data is Annex B | Render | proved | sequence parameter sets below 65536 bytes |
| C79 | Smooth counts are right | Render | partial | Quality level counts are right; the chunk count is one too many in every stream (smooth_count_wrong). |
| C80 | Sequence parameter sets are parsed | H264 | partial | Proved for every parameter set without scaling matrix with codes in the range of C41; false for the profiles 44, 83 and 86 and for payloads that end in a byte 3 (witnesses); scaling matrices are not decoded. |
| C81 | The decoder configuration record holds the parameter sets | H264 | partial | The profile compatibility is written as 0 or 1, the extension of the high profiles is missing, several sequence parameter sets overwrite each other and more than 256 bytes overrun the array (witnesses); everything else is right for all parameter sets. |
| C82 | Picture size of a video stream | H264 | partial | Cropping and interlacing are ignored (size_found says exactly what is found). |
| C83 | Polls of an event tell the truth | Event | proved | All executions; single steps of the flag are taken to be atomic. timed_busy shows that a poll which overlaps the signal can return false early. |
| C84 | Asynchronous file requests are answered once, and reads in order | FileAsync | partial | Exactly once and termination for all kinds of requests, order for reads only; reads mixed with writes are answered out of order, and the failure of an early completed read is lost or given to another (witnesses). |
| C85 | Reading a file in pieces gives the file | FileAsync | proved | Reads that succeed, on a file that is not changed meanwhile. |
| C86 | Written data is in the file | FileAsync | partial | Proved for writes that touch different bytes, in particular for a file written from start to end; bytes that are written again while the first write is under way can keep the old contents (witness). Short writes are not modelled. |
| C87 | The esds box of a written audio stream | Esds | partial | Object types 1 and 2; for others the writer calls skipbits, which is not modelled. |
| C88 | The esds box of any file is read | Esds | partial | Proved for object types below 31 with an indexed frequency and one decoder specific descriptor. False without decoder specific information (a pointer that was never set is used), for an explicit sampling frequency and for object types of 32 and more (witnesses). |
| C89 | Codec private data is kept | Esds | partial | Only object type, rate and channels are kept: frames of 960 become frames of 1024 and extensions are dropped (witnesses). |
| C90 | Reading a file sample by sample | Reader | proved | For files whose samples lie inside the media data box (otherwise samples are dropped, witness). |
| C91 | Moving to a time | Reader | partial | Exact when the time scale divides 10 MHz; otherwise at or before (rounding, witness). |
| C92 | Base media decode time of a fragment | Reader | partial | Holds when the fragment starts at the presentation time of its first sample; otherwise off by the distance (witness). |
| C53 | Reading through the buffered file reader gives the file | FileReader | partial | Proved for every schedule for calls that end 8 bytes (fields: 4 bytes) before the end of the file; in the last bytes wrong data is given when a field lies across two buffers (witness), because the rest of the shadow buffer is taken from its start. |
| C93 | The end of a file is noticed at its end | FileReader | partial | Proved when answers come in time, for reading the whole file and for fields that do not lie across buffers. False when the last answer is late (eof() looks at the position already asked for), for fields across the end (filled with zeros) and for reads that leave 1 to 3 bytes (end of data raised) (witnesses). |
| C94 | Moving in a file | FileReader | partial | Proved when the answers come in time, 8 bytes before the end (the rest of the file can be read after any set_position). False for synchronous files of 4 GB and more, for set_position after a field that ends inside a byte, past the end, for skips longer than both buffers (twice as far), and for asynchronous files whose answer is late (wrong place or time out) (witnesses). |
| C95 | NAL units of a byte stream are found | Demux | partial | Proved for start codes of 3 and 4 bytes and NAL units without trailing zeros. False with more zero bytes before a start code (they become part of the unit before) and for data without start code (witnesses). |
| C96 | ADTS frames of a PES packet are found | Demux | partial | Proved for frames with data of which the last has at least nine bytes; shorter last frames are dropped with a message (witness). |
| C97 | Audio frames get consecutive times | Demux | partial | Exact when the frequency divides 10 MHz; otherwise early by up to a stated drift per frame, because the division is done before the multiplication (witness). |
| C98 | An access unit becomes one MP4 sample | Demux | partial | Parameter sets that change during the stream are lost (witness). |
| C99 | Transport packets are read | Demux | partial | Proved without private data and extension in adaptation fields; private data shifts the payload and packets marked as erroneous are not handled as such (witnesses). Progress and end proved for every file. |
| C100 | PES headers are read | Demux | partial | Proved for headers without CRC and reserved trick modes (witness). |
| C101 | PES packets are delivered once, in order and complete | Demux | partial | Proved for all PES packets but a last one without length, which is only handed on by End(), which nobody calls; indicators proved for packets with length; without length that of the first is reported for all; short audio packets at the beginning are dropped (witnesses). |
| C102 | Multiplexing and demultiplexing gives back the samples | Demux, Psi | partial | Proved for all interleavings, per stream and for whole files read from their bytes with tables (up to 33 streams; 34 cannot be read, witness), for samples whose PES packet does not run into the defects of C19 and C62 (sizes) and whose stream is recognised; the last sample needs End() when it is bigger than 64 KB. Audio: first frame of at least nine bytes, others two. |
| C103 | The program tables are read | Psi | partial | Proved for tables of one section, any descriptors and any number of packets, when no packet boundary lies in the last bytes of the section and the first packet of a pid starts a table. False when the section ends within four bytes behind a packet (reading the file fails, also for files the program wrote itself with 34 streams), for packets without payload, for tables of several sections, for the network pid, and for tables announced for later; damaged tables are used (witnesses). A map that changes later is not noticed. |
| C104 | Packets reach the receiver of their pid | Psi | partial | Proved for one program map; packets of further programs must not be in the part considered. When a receiver fails reading ends. |
| C105 | Fragments are read back | Moof | partial | Proved for all files of fragments this program writes (with base time, durations below 2^31), and for fragments of any program with one track fragment and one run (any flags, versions, optional fields, sub-samples, other boxes between; any_fragments_partial), unless a clear fragment follows an encrypted one (it is decrypted, witness). Otherwise false: of several runs or tracks only the last is read, base times and defaults are taken from earlier fragments, user defined boxes are read as boxes, 64 bit sizes lose the place, a free box of size 0 is never left (witnesses); the strict mode refuses every segment the program writes (strict_parse_refuses). |
| C106 | Samples are decrypted as the standard says | Moof | proved | With sub-samples that make up the sample, as the standard demands; AES abstract. |
| C107 | The command line says what was given | Cmdline | partial | Proved for every table and every line in which no name contains ':' or '=', no value behind '=' contains ':', no shortcut belongs to two commands or is 0, and no switch is given by its shortcut alone. Otherwise false: a value behind '=' with ':' in it is torn apart, '-v' is not '-validate', '-h' is never help, '-0' goes to an unknown parameter (witnesses). |
| C108 | Missing parameters are noticed | Cmdline | proved | For every command line; process also never fails. required_partial says the same in terms of what is on the line (for the lines of C107). |
| C109 | Numbers and truth values of parameters | Cmdline | partial | toInt64_spec is complete: the number a text begins with, clamped to 64 bits, and an exception if there is none. Partial because get_integer_value drops the high half of larger numbers, what follows the digits is ignored, and a switch that was given (T) is not true (witnesses). |
| C110 | Joining and cutting keeps the samples | Edit | partial | samples_of_part holds for every file that is accepted and every range, from the position `move` goes to (C91); whole files: proved when no track begins before the first picture is presented. False for whole files whose video has a composition delay (the first audio frames are lost) and for files with few samples behind the start (refused) (witnesses). |
| C111 | Files added one behind the other follow each other | Edit | partial | Proved for every list of files and ranges in which the first sample of every stream of a part is presented first and every stream has two different times in the part. Otherwise false: a leading picture found late gets a time below 0, a stream without sample in a part forgets its end (overlap); presentation and decoding times move by different amounts, so that samples with composition offsets are decoded after they are presented (witnesses). |
| C112 | Only files that fit are joined | Edit | partial | Proved but for picture parameter sets, of which only the beginning is compared; a file in which a stream that cannot be used comes before others is always refused (witnesses). |
| C113 | Decoding times are made from presentation times | Level | partial | auto_decoding holds for every stream: order kept, times never decrease and increase for every sample but one presented first of all, offset sufficient and smallest. Span and constant frame rate: proved for different presentation times. Otherwise false: a first presented sample that is not coded first repeats a decoding time; equal presentation times make the decoding run longer than the presentation (witnesses). |
| C114 | The streams of a written movie stay together | Level | partial | level_shown says for every movie by how much each stream is delayed; it is the same for all when no stream begins decoding before the stream that is presented first, in particular (finish_sync_partial) when in each stream the first sample is presented first or decoded when presented. movie_read_partial carries this through the tables to the times the reader gives, with all rounding; the floating point conversions are any functions that round down and lose less than e ticks. Otherwise streams get out of step (witnesses); delays are cut to milliseconds. |
| C115 | Requests given to the loop thread are served | LoopThread | partial | For every schedule: no callback is called twice or without request, an open request is served within a bounded number of steps of the loop thread, end returns, and the exception thrown is that of the last callback. All requests are served before end returns, unless end is called just between the return of the loop and the check of the exit flag (a request is then lost silently, witness) or a callback throws (nothing is served any more; in the destructor the exception ends the program, witness). |
| C116 | HLS segments hold every sample once | Edit | partial | Proved for every file and every list of beginnings of closed groups of pictures, all streams at once (audio without any restriction). Otherwise false: open groups are refused, with an edit list pictures are lost, a last segment with few samples is refused (witnesses). |
| C117 | HLS segments follow each other | Edit | partial | Proved when the first sample stored in each segment is presented at its start; when another stream's sample is stored first all times of the segment are off by its distance (witness). |
| C118 | The PlayReady object describes itself | Drm | partial | Proved where wchar_t has two bytes (Windows) and the header has fewer than 32768 characters. On Linux (four bytes) no object at all is right: the lengths count four bytes for each character, two are written; the record length has 16 bits (witnesses for all headers). |
| C119 | The PlayReady header names key and address | Drm | partial | Proved for addresses without '<'; AES abstract. The address is not escaped: with '&' in it the header is not well-formed (witness). |
| C120 | Manifest and file signal the same DRM data | Drm | proved | For every key id of 16 bytes and bodies below 2^31 bytes. |
| C121 | A pssh box is read and written unchanged | Drm | partial | Proved for boxes with at most one key id; of several only the last is kept (witness, for every list). |
| C122 | Printing a PlayReady box shows its records | Drm | partial | Proved where wchar_t has two bytes for objects of one record. On Linux the tool reads outside of the data for every object with a header record; the text of a second record is taken from the wrong place (witnesses). |
| C123 | The clear key license file names the key | Drm | partial | The values are the standard Base64 texts of key id and key; always with padding and with '+' and '/', which the standard does not allow (witness). |
| C124 | A media segment holds the samples of its time window | Dash | partial | Proved for audio cut anywhere and for video cut at the beginnings of closed groups of pictures without edit list, encrypted or not, from sample tables to the bytes of the finished segment. Open groups and edit lists: see C45 (the reader itself loses samples). |
| C125 | A player shows a media segment at its time | Dash | partial | Proved for the 10 MHz time scale the program uses: first sample exact, the k-th sample early by at most k ticks of 100 ns (exact if 10 MHz is a multiple of the time scale of the source). The rounding error is real and accumulates inside the segment (witness at 30000/1001). |
| C126 | The segments of a stream are the whole stream | Dash | partial | Under the conditions of C124; the first part of a cross segment must not be empty. |
| C127 | A movie file gives back the samples that were added | Movie | partial | Proved from add_sample (module Interleave) over the tables (module Tables) to the bytes of the file and back through an independent strict reader, for every history; each stream needs two samples of different size, a video stream a key frame, the file fewer than 4 GB. Otherwise false: with samples of one size the size table is empty, a single sample has two durations, without key frames all are taken for key frames (witnesses). Samples still queued when the file is ended are not in it (C62). |
| C128 | A movie file gives back the parameters of its streams | Movie | partial | Proved for every number of streams whose numbers fit their fields. Sample rates from 65536 on do not: 96000 is read as 30464 (witness). |
| C129 | The headers of a movie tell its duration | Movie | partial | What the headers say is proved for every movie: from the first to the last composition time. The property is false: the last sample is left out; with reordering the last sample in the file is not the last shown, the difference can be negative (a huge number); the movie header has the shortest stream instead of the longest (witnesses). |
| C130 | The initialization segment describes the fragments | Movie | partial | Proved for every kind of stream; the duration has 32 bits (witness: ten minutes at 10 MHz read as less than three). |
| C131 | Time codes are words of digits and add up | TimeCode | proved | Words of digits below 100 for each field; sums for fields below 2^30. |
| C132 | Time codes are subtracted | TimeCode | partial | On Linux (64 bit long) right only when no field borrows; with a borrow the field is always wrong (sub64_wrong). On Windows right but when the minute or second field borrows 60 from 59 and across midnight (witnesses). |
| C133 | A time code track gives back the time code of every frame | TimeCode | partial | Proved for 25 frames per second and steps of whole milliseconds, any number of breaks: exactly the first sample of each run is stored (unless the stream begins with 00:00:00:00 at 0: then nothing is, witness), and the answers are right in the first and the last run and at the first frame of every run. In the runs between the code is computed backwards from the next run and is wrong (witness); other frame rates are counted as 25 (witness). |
| C134 | Linear time code words are found and read | TimeCode | proved | Registers of 32 and of 64 bits; time codes below 24:00:00:00 with up to 30 frames. |
| C135 | The bi-phase mark signal is decoded | TimeCode | proved |  |
| C136 | The reader opens every file of the writer | Parse | partial | Proved for every history of C127 (a stream needs two sizes of samples, video a key frame, file below 4 GB), with no sample presented before the first of its stream: otherwise the reader crashes on the file of the writer (witness). Whether avcC and esds contents are accepted is a parameter. |
| C137 | What was muxed is what is read | Parse | partial | Under the conditions of C136: from the calls of add_sample to the samples delivered by next_file_chunks, through the bytes of the file. |
| C138 | Opening a file comes to an end | Parse | partial | For every sequence of bytes: what has not ended after as many steps as the file has bytes, and one, never ends. Proved that it ends, with the file opened or an exception, for every file whose mdat and free boxes end behind their begin and whose trak, minf and sample entry boxes end in the file, whatever else is in it, and for the files of the writer. False in general: an mdat or free box of size 0 (in the format: up to the end of the file) and a file cut off behind the header of a box in a track are read for ever (witnesses, for every content behind the box and every size). |
| C139 | Boxes that are not known are passed over | Parse | partial | Proved for every box with a 32 bit size; with a 64 bit size the first eight bytes of the next box are lost, always (witness). |
| C140 | Corrected audio times always go up | AudioFix | partial | Proved for every sequence of times (exact arithmetic in place of double), except when a corrected time is exactly 214.7483647 s, which is the mark for no frame (witness). |
| C141 | The correction removes rounding | AudioFix | partial | Proved for every stream with frames of 1024 samples, with the exception of C140. |
| C142 | Corrected times stay close to those given | AudioFix | partial | Never earlier than the time given by more than 1025 samples, for every sequence. Later: without limit when times stand still (witness, every length); after a hole of one second 6 ms for ever (witness, every length); with frames of 2048 samples every second frame is moved by 1023 samples (witness, every length and rate). |
| C143 | Audio segments run on across files | Publish | partial | Proved for any number of files with one stream each without composition offsets, used from a sample that is found (C144) to the end, each for at least two segments. Shorter files and several streams: C145. |
| C144 | The search for audio segments ends | Publish | partial | Ends under the conditions of C143. False in general: a start behind the last audio sample, between the first two samples or less than one unit of the media behind any sample, and a fragment length below one sample, are searched for ever; no duration, or a file too short to fill a segment begun before it, throws. |
| C145 | No sample is left out of the audio segments | Publish | partial | True under the conditions of C143. False otherwise: the rest of a short file is published as a full segment and its samples are dropped from the next; the second stream of a file takes over the rest of the first one (witnesses). |
| C146 | The published segments hold the whole file | Publish | partial | False: a segment is written from each point to the next, so nothing is written from the last point on. Proved for every audio stream (from the search for points to the bytes of the segments): all samples but the last full segment and the rest, at least one segment of samples is lost; for every stream: exactly what is presented before the last point. |
| C147 | The segment starts of video are its key frames | Gop | proved | For every track whose key frames are presented one after the other (otherwise the walk ends at the first that goes back, witness), all times below 2^64 / time scale. |
| C148 | The list of groups of pictures is complete | Gop | partial | Proved for time scales that divide 10 MHz and key frames presented before the next is decoded; the last key frame is listed twice. False otherwise: at 30000/1001 the list ends at the second key frame, with short groups and composition offsets key frames are left out and numbers are wrong (witnesses). |
| C149 | The listing of samples is complete | Gop | partial | Proved for one stream stored in decoding order. For all streams the listing ends at the first sample of any stream behind the end, so samples of other streams are left out (witness). |
| C150 | The creation time of a movie | Date | proved | The number of seconds is counted from 3804-02-01 instead of 1904-01-01 (year and month are put into struct tm without the offsets it has), so it is negative; in 32 bits always 168633344 s too large: proved for every date and zone. |
| C151 | Dates as text | Date | partial | Proved for the clock in UTC when both readings fall into the same second (otherwise a second too early, witness) and for the time of day of a date that was read. False: a date that was read or given is always printed with another year and month (proved for every date), its milliseconds come from uninitialized memory, zones behind UTC print a number of twenty digits (every whole hour), minutes of a zone are lost. |
| C152 | The difference of two times | Date | partial | Proved for two readings of the clock, the later minus the earlier. When the clock was set back the result is a huge positive number (every pair); days between two given dates are wrong (witness). |
| C153 | All fragments given become part of the movie | Remux | partial | Proved for up to three streams with one track each in the first file. False otherwise: a fourth stream and all streams after a number that is left out are ignored (proved for every input); with two tracks in a first file the samples of the next stream go to the wrong track at the wrong time (witness). |
| C154 | Packaging and joining again gives the stream | Remux | partial | Proved for sound, from the bytes of the segments to the samples read out of the movie, with the conditions of C105 and C137 (no fragment in the clear behind an encrypted one; the last samples can stay in the queue). Video goes through the computation of decoding times (C113), which is not part of the composition. |
| C155 | The check of written fragments reports exactly the gaps | Validation | partial | messages_exact says for every sequence of calls what is reported; files written completely are silent (every list). False: what is missing at the end of the last file is never reported (proved for every list of files), a fragment without samples at the beginning of a file and a file used from a later sample on are reported wrongly, a seventeenth stream writes outside of the arrays (witnesses). |
| C156 | Picture parameter sets are read as the encoder wrote them | Slice | partial | The part before the extension is read right for every parameter set but those with an explicit slice group map (type 6 is read with the wrong code, witness); codes up to 2^31 - 2, numbers up to 2^23. The extension is never read on opening. Printing a decoder configuration reads it when it has no scaling matrix, unless it has 3 bits and begins at bit 4 of a byte; a parameter set without extension cannot be printed when its length is 0 to 3 modulo 8: proved for every such parameter set. Payloads ending in 3: see C40. |
| C157 | Slice headers are read as the encoder wrote them | Slice | partial | Proved for every pair of parameter sets without separate colour planes, with the field flag in memory being 0 where it is used although it is not in the header. False otherwise (witnesses): the flag is not initialised; for slice types 5 to 9 direct flag and reference picture numbers are not read; colour_plane_id is not read. |
| C158 | The listing of a sample shows each of its NAL units | Slice | partial | Proved for every list of units with lengths of four bytes (samples below 4 GB) under the conditions of C157; with other lengths the place of the second unit is wrong (witness). Pictures timings (SEI type 1) are not modelled. |
| C159 | Start, end and mean sample duration of a stream | Span | partial | Proved for every track that can be opened with positive durations and a composition offset for each sample or none (times below 2^64 / 10^7 units). A track can be opened if and only if no sample is shown before the first one (ctts_read_iff): otherwise the reader reads before its array. |
| C160 | Decoding times of the ends of a stream | Span | partial | The start is right. The end is false: the decoding time of the sample whose number is the number of streams less one; proved too early for every stream with more samples than the file has streams. |
| C161 | Every stream of a presentation has its own name and number | Presentation | proved | For first files with less than 2^31 streams; later files have at least as many streams as the presentation (the joiner refuses others). |
| C162 | A segment comes from the file that was added for its time and bit rate | Presentation | proved |  |
| C163 | Which Add calls are accepted | Presentation | proved |  |
| C164 | Moving a presentation to start at zero | Presentation | proved |  |
| C165 | Every input gets its own files and bit rates | Request | proved | For command lines of fewer than 2^31 arguments (argc is an int). Numbers are reduced to 64 bits as in the program. |
| C166 | Publishing refuses options that do not fit | Request | partial | hls: proved whenever there is an input; without one the program divides by zero (hls_no_input). ssf and dash: proved for at most 16 audio streams and languages of at least two letters; more than 16 write outside of an array, shorter ones are read behind their end (proved). |
| C167 | The languages of the audio streams | Request | partial | Each item gets as many codes as there are audio streams. The codes are false: the letters are joined by || so that every code is 0 or 1 (witness); nothing reads them. |
| C168 | The segments come from the files of the command line | Request | proved | video_file for bit rates that every input has and that are different within an input. The ends of the parts move forward (as the joiner makes them). |
| C169 | The bit rate reported for a stream | Rate | partial | Proved: never lower than the right rate, higher by the factor (s + 1) / s at most for a track of s whole seconds and a part, exact for whole seconds. False otherwise: 0 for every track of less than a second; with one size for all samples the size is taken at 2^32 (0 for exactly 4 GB). Lengths below 2^64 / 10^7 units. |
| C170 | Keys converted between hexadecimal text and base64 | KeyText | partial | 64hex: proved for every key that is not empty (an empty one writes behind a buffer of no bytes) and has no { (C02). hex64: proved for keys with a zero byte behind bytes the locale can show. Without a zero byte the key is read behind its end (it is shown as C text first); with a byte the locale cannot show before the zero byte the output stream fails and the base64 is not shown. A last digit without partner is left out. |
| C171 | Every video bit rate is described by its own file | CodecData | proved | For parameter sets below 64 KB (a file cannot hold longer ones; their lengths would be cut, long_lost). Of first files with the same bit rate the last one counts. The middle byte of the codec name is wrong in the manifests (see the claims on codec names). |

## Modules: what is modelled and how it is proved

### AudioFix

The AAC time correction as a state machine on whole numbers: the unit is 100 ns divided by the sample rate, so all constants of the code are integers and nothing but the rounding of double is left out. Steps by case analysis; regular streams by the invariant that the last time is the exact one or one sample later with an error below one sample; defects as theorems over all lengths by induction.

* `src/mg/media/aac_time_fix.h`: 1-118, 9-10, 27-39, 31, 32, 36, 48-116, 62, 74-95, 99-109
* `src/mg/media/mp4mux.h`: 299-327, 308-315
* `src/mgcli/mp4info.cpp`: 3747

### Base64

Encoder/decoder state machines of libb64 on `UInt8` lists, an out-of-table lookup is a distinct outcome. Induction over the text in steps of 3/4; block independence because the state machine is a fold.

* `src/b64/src/cdecode.cpp`: 32-39, 34, 41-45, 47-109, 59-104
* `src/b64/src/cencode.cpp`: 31-36, 38-43, 40, 45-106, 56-103, 108-129
* `src/mgcli/cenc_provider.h`: 163-177

### BitStream

Write buffer as byte list with a bit cursor, `_putbits` shifts on 32 bit words; reader on fixed memory. Abstraction to bit strings (big-endian lists of Bool), invariant buffer = bits; an out-of-bounds index is reported by the model.

* `src/mg/core/bitstream.h`: 83-113, 213-223, 227-237, 240-250, 260-279, 364-400, 408-418, 421-437, 439-476, 450-473, 455-458, 463-467, 478-486, 488-495, 524-543, 627-643, 645-663, 880-899, 904-968, 1121-1123, 1150-1153, 1309-1343
* `src/mg/media/TBitstream.h`: 98-109

### Box

Byte store with positions and the stack of open boxes. Induction over box trees; the parser is the specification.

* `src/mg/core/bitstream.h`: 317-359, 478-486, 666-698, 834-865, 880-899, 896
* `src/mg/media/TBitstream.h`: 215-240, 221-225
* `src/mg/media/mp4write.h`: 73-194, 73-86, 103-163, 124-132, 134-149, 160-163

### Buffer

CBuffer as (storage, current, size), and the memory storage. Invariant over operation lists, refinement to a file.

* `src/mg/cbuffer.h`: 51-62, 78-88, 93, 94-108, 115-130, 125-130, 201-206, 208-214
* `src/mg/media/TBitstream.h`: 113-213, 116-120, 131-134, 136-151, 153-182, 194-205

### Cenc

Counters on byte lists, encrypt, add_sample with an abstract block cipher, the auxiliary boxes. Positional arithmetic; xor involution.

* `src/mg/media/mp4fragmented.h`: 129-189, 208-235, 208-260, 237-260, 282-299, 336-411, 365-404, 367-402

### Clock

Text of times; decimal printing and arithmetic.

* `src/mg/media/hnano.h`: 35-37, 41-48, 55-58, 60-63, 65-68, 70-74, 83-107, 111-125

### Cmdline

The command line parser `console_command` and the conversions of values to numbers and truth values. The table is an ordered list of pairs (`std::map` with `strcmp` order, which is proved to be a strict total order). Specification: what an argument is (word, option with name and value), which command an option means (name or shortcut) and the relation `Values` between a line and the values of a name. Proved by an invariant over the arguments (declared commands stay as declared, others are unclassified); witnesses use the real table of `mg`. Not modelled: the help text, `set_value`, and that the returned string shares its buffer with the table.

* `src/mg/alxstring.h`: 636-646, 680-748, 696-702, 730-742, 863-868
* `src/mg/cmdline.h`: 367-595, 383, 388-395, 397, 400-415, 417-511, 423-492, 425-460, 432-434, 447-454, 462-488, 466-481, 485, 490, 494-508, 518-526, 528-531, 533-539, 555-559, 585-594
* `src/mgcli/mp4info.cpp`: 4503-4562

### CodecData

The codec private data as bytes: made from the parameter sets, read again by the writer of the initialization segment (here) and by the manifests (module Render), and the map from bit rates to these data filled from the first files. The specification: the files as a list, the last one with a bit rate counts; parameter sets behind start codes. Induction over the files. Not modelled: opening the files (module Parse), audio configuration (module Esds).

* `src/mg/media/mp4dynamic.cpp`: 129-193
* `src/mg/media/mp4dynamic.h`: 208-237
* `src/mg/media/mp4dynamicinfo.h`: 48-64, 538-545, 985-1090, 985-1085, 1029-1082, 1051-1082, 1133-1144
* `src/mg/media/mp4fragmented.h`: 712-715
* `src/mg/media/mp4write.h`: 1974-1996

### Crc

Table construction and the byte loop on 32 bit words; one table step is eight bit steps by linearity; the specification is polynomial division.

* `src/mg/media/wincrc.cpp`: 28-38, 35-36, 40-46, 66-89, 73-74, 74, 76-86, 77, 77-81, 86, 115-118
* `src/mg/media/wincrc.h`: 29, 56

### Dash

The production of media segments end to end: reader (module Reader: tables, `move`, `next`), bytes of the file, fragment writer (module Fragment), as in add_frames_to_m4f and produce_m4f_chunk(_cross). The loop with bytes is proved to do the same as the loop without them of module Reader (simulation by induction on the samples left), so its results there (C44-C46, C91) give the samples added; the result of module Fragment gives the finished bytes for every list of samples. The specification reads the segment with an independent parser, decrypts it, and plays it by the rules of ISO 14496-12 (`play`). Times: the difference between the sum of the durations written and the real distance is bounded by one tick per sample, from the closed form of the sample times in C43. Stream: induction over the list of times.

* `src/mg/media/mp4fragmented.h`: 571-683, 608-675, 615-618, 646-672, 796-849, 813-823, 890-961
* `src/mg/media/mp4parse.h`: 508-524

### Date

The C library by its specification (gmtime_r, mktime with a fixed zone, strftime); the constructors, differences and texts of Ctime as functions of the fields; sscanf as 32 bit stores into 16 bit words of a memory with arbitrary content. The specification counts the days of the calendar year by year; the closed formula of mktime is proved equal to it by induction, the texts by an induction over decimal digits.

* `src/mg/core/ctime.h`: 32-45
* `src/mg/core/nx/ctime.cpp`: 29-40, 43-53, 54-60, 61-71, 93-122, 132-145, 149-172, 175-191, 236-239, 241-244, 246-251, 259-262, 277-308, 310-319, 321-338, 356-395, 365-392
* `src/mg/media/mp4write.h`: 56

### Demux

The transport stream reader: packet and adaptation field (`ts` reader, mpeg2ts.fl), PES header with all optional fields, the state machine of `ts_pes` that puts PES packets together and hands them on (as a fold over the packets of a pid, with the analysing receivers' wait for a recognisable start), the splitting of H.264 byte streams and ADTS frames, and what `ts2mp4` makes of them. Specifications are independent readers of ISO/IEC 13818-1 packets (`Spec.packet`, `Spec.pes`, `Spec.group`) and writers of byte streams and frames. The state machine is proved against `group` with an invariant per unit (`Idle`, `Between`, `Phase`); progress of the packet reader holds for every input. C102 composes the writer's theorems (module TsMux) with the reader's: what the one specification reads is what the other reads (`packet_of_ts`, `pes_of_pes`).

* `src/mg/core/bitstream.h`: 497-514, 1077, 1119
* `src/mg/media/mp4/aac.fl`: 151-175, 190-193
* `src/mg/media/mp4/mpeg2ts.fl`: 558-566, 558-878, 664-845, 689-842, 692-716, 740-768, 781-833, 838-842, 899-993, 911-993, 915-925, 946-956, 957-976, 1255-1310, 1287-1310
* `src/mg/media/ts.h`: 56-238, 58-75, 114-125, 127-184, 152-180, 157, 205-208, 526-920, 526-533, 562-611, 612-693, 702-706, 745-750, 752-759, 806-809, 811-816, 823-843, 853-876, 878-894, 895-905
* `src/mg/media/tsinfo.cpp`: 190-333, 190-198, 201-217, 219-272, 275-281, 291-323
* `src/mg/media/tsparse.h`: 176, 183-186, 216-236, 246-392, 263-383, 267-273, 285-296, 407-433, 449-546, 467-533, 469-475, 492-493, 503-524, 536, 715-731, 830-890

### Drm

The providers as functions from key, key id, address or body to the bytes and texts they produce; the PlayReady object through the bit stream model (`little_putbits` on `wInit`), the `pssh` box as byte lists, `sizeof(wchar_t)` a parameter, AES a parameter. The specification reads these as the receivers do: a parser of PlayReady objects, of `pssh` boxes (ISO/IEC 23001-7), of UUID texts, and a search for elements and attributes. Proofs: the written bytes are computed in closed form (`body_bytes`), texts are found by showing that the mark does not occur earlier (`absent`).

* `src/mg/core/bitstream.h`: 645-663
* `src/mg/media/mp4/cenc.fl`: 287-357, 298-356, 321-340
* `src/mg/media/mp4/mp4.fl`: 170-183
* `src/mg/media/mp4write.h`: 124-149
* `src/mgcli/cenc_provider.h`: 24-42, 69-88, 93-111, 147-203, 215, 223-226, 226, 229-230, 229-242, 235, 240, 242, 244, 269-284, 269-280, 288-308, 310-337, 316-322, 321-322, 326-327, 332-333, 345-375, 347-364, 390-394, 429-442, 431-432, 438-439, 444-453, 446, 448, 450, 476-493, 499-513, 518-530, 542-592, 548, 582, 588-589
* `src/mgcli/mp4info.cpp`: 655-800, 694-770, 714-768, 736, 5448-5466, 5454-5458
* `src/mgcli/stdafx.h`: 65

### Dynamic

The ordered maps of CMP4DynamicInfo as sorted association lists, publish, Compute/GetJoinTime. Induction over lists of insertions.

* `src/mg/media/MediaJoin.h`: 51-83, 86-91
* `src/mg/media/mp4dynamic.cpp`: 67-88, 454-470
* `src/mg/media/mp4dynamic.h`: 359
* `src/mg/media/mp4dynamicinfo.h`: 28, 78-89, 91-110, 112-123, 125-130, 150-156, 158-169, 171-174, 176-179, 181-191, 193-205, 207-219, 221-233, 235-288, 249-266, 254-265, 268-287, 271-284, 290-300, 302-336, 338-351, 355-361, 362-371, 373-427, 429-475, 435-472, 448-460, 477-488, 496-509, 585-594, 916-935

### Edit

Joining and cutting of MP4 files: `do_edit_header_mux`, `do_edit_mux` and `Add`, up to the calls of `add_sample` of the muxer, on top of the models of the reader (Reader) and of `CMediaJoin` (Dynamic). The loops over the samples are reduced to loops over the list the reader delivers; invariants give, stream by stream, the samples, the times and the end kept. The specification (`Follows`, `Chain`) speaks of the samples in the file, one shift for all streams, and ends of parts. Not modelled: the LTC stream, assertions, `physical` = false, sums above 2^64. HLS segments (`segments`, `timed`): one editor per segment, then the time base of `HLSMux` (module TsMux).

* `src/mg/media/mp4edit.cpp`: 34-168, 43-163, 172-782, 188-302, 202-302, 304-397, 342, 353, 444-577, 480-483, 610-752, 615-621, 624-637, 639-746, 643-644, 671, 672-675, 724-733, 736-746, 756-781
* `src/mg/media/mp4edit.h`: 28, 31-56, 126-150, 277-302, 280-286
* `src/mg/media/mp4parse.h`: 2224-2237, 2751-2759
* `src/mg/media/tsinfo.cpp`: 997-1141, 1046
* `src/mg/media/tsmux.h`: 669-745, 770-773
* `src/mgcli/mp4info.cpp`: 3765-3791

### Esds

The readers generated from the flavor classes as functions on the bit reader with lookahead; a relation `ReadsTo` between the bits that are there, those left and the value, with a rule for sequencing. The specification is the syntax of the standards as bit strings, with the form of every length chosen freely. The writer as a list of fields, shown to be the specification's bits.

* `src/mg/core/bitstream.h`: 566-574, 1134
* `src/mg/media/mp4/aac.fl`: 57-82, 84-118, 84-107
* `src/mg/media/mp4/mpeg4_odf.fl`: 56-95, 58, 79-90, 97-143, 165-235, 172-213, 237-262, 237-275, 256-262, 307-342, 312-342, 344-371, 378-396, 400-420, 400-485, 425-437, 439-483, 487-490, 555-605
* `src/mg/media/mp4parse.h`: 1774-1800
* `src/mg/media/mp4write.h`: 2019-2066, 2074-2087

### Event

`signal_event` as a transition system with arbitrary many threads, each step of `signal`, `reset`, `wait`, `wait(ms)` a transition, POSIX mutex and condition variable with spurious wake ups. Invariants over all executions for what holds, concrete executions for the lost wake ups.

* `src/mg/core/thread.cpp`: 86-90, 97-152, 104, 106, 120, 121, 122, 136, 138, 139, 140-141
* `src/mg/core/thread.h`: 60-63

### Fields

Big-endian fields as byte lists, used by other modules.


### FileAsync

The reorder buffer of `uv_file_cb` as a function on the list of early reads; the program and libuv as a history of events in which any pending request may complete. Invariants over all histories. Writes as a list of (position, bytes) carried out in any permutation on a map from offsets to bytes.

* `src/mg/core/bitstream.cpp`: 141-156, 199-208
* `src/mg/core/file.cpp`: 29-162, 52-96, 352-403, 405-469, 434-435
* `src/mg/core/file.h`: 41-56, 58-99, 88-99, 117-123, 130-132

### FileReader

The two-buffer reader with both kinds of storage and an arbitrary schedule of answers. Invariants `Good` (buffer, shadow buffer, pending answer and rest of the file put together are the file) and `Bad` (the last page was taken from the wrong end, so that only the buffer is trusted); each call either keeps one of them or raises an end of data. Fields are related to the bit string of the file through `extract`.

* `src/mg/core/bitstream.h`: 48, 260-279, 281-291, 286-288, 293-315, 363-384, 386-400, 408-418, 497-515, 566-574, 576-589, 686-698, 700-832, 716-830, 904-968, 971-1031, 1000-1007, 1025-1026, 1035-1064, 1162-1237, 1181-1230, 1239-1289, 1309-1343, 1320-1325, 1327-1341
* `src/mg/core/file.cpp`: 405-469
* `src/mg/core/file.h`: 128, 130-132, 138-178, 144-151, 180-277, 215-224, 257-259
* `src/mg/core/thread.cpp`: 64
* `src/mg/media/TBitstream.h`: 262-266, 289-293
* `src/mg/media/mp4parse.h`: 290-309

### Fragment

moof/traf/trun writer with back-patched offsets, sidx, and a reader according to ISO 14496-12 as specification.

* `src/mg/media/mp4/cenc.fl`: 128-184, 187-222, 227-251, 255-284
* `src/mg/media/mp4/mp4.fl`: 12, 173-187, 787-823, 862-895
* `src/mg/media/mp4/mp4_fragments.fl`: 104-114, 116-198, 140-155
* `src/mg/media/mp4fragmented.h`: 62, 75-566, 75-109, 196-206, 262-265, 279, 282-299, 302-333, 336-411, 413-566, 413-485, 418-428, 433-456, 489-527, 494, 795-848
* `src/mg/media/mp4write.h`: 73-97, 73-194, 103-122, 124-132, 134-149, 151-163, 189-192, 261-267
* `src/mgmedia.h`: 34

### Gop

The walk over the key frame table of an opened track (module Reader) with its remembered place as explicit state, the loop of move_to_read with the choice of segment starts, and the listing commands. The proof gives the place in the table a meaning (which key frame, which follow) and carries it through the loops; the key frames are those of the samples of the track, so the statements do not mention the table.

* `src/mg/media/mp4dynamic.cpp`: 57-93, 69-88
* `src/mg/media/mp4dynamic.h`: 239-256
* `src/mg/media/mp4parse.h`: 88, 229, 1299-1322, 1312-1322, 2320-2326, 2320-2335, 2328-2335
* `src/mgcli/mp4info.cpp`: 2768-2905, 2845-2898, 2907-2966, 2944-2963

### H264

The NAL decoder on byte lists and on memory; the parser as a state and error monad over the bit reader of `BitStream`, one definition per class of the .fl file. The specification is the encoder side of H.264 (escaping, Exp-Golomb codes, the syntax as bit strings). `Reads p b v`: wherever the bits `b` are, `p` takes exactly them and gives `v`; it composes along the syntax. The configuration record against the record of ISO/IEC 14496-15.

* `src/mg/media/h264nal.h`: 56-96, 75-95, 105-123
* `src/mg/media/mp4/h264.fl`: 13-30, 17-19, 32-41, 45-71, 57-63, 73-166, 84-91, 97-107, 114-123, 137-151, 170-267, 170-284, 170-273, 184-212, 198-212, 215-240, 219-240, 249-255, 270-273
* `src/mg/media/mp4/mp4.fl`: 562-609, 571-609, 591-598, 601-607, 612-613, 618-619, 624-644
* `src/mg/media/mp4write.h`: 1815-1864, 1825-1836, 1838-1853, 1857-1858

### HlsCrypt

CBC with an abstract permutation, padding over arbitrary write sizes, the initialisation vector. Induction over blocks.

* `src/mg/media/hls_renderer.h`: 36, 37, 189, 286-391
* `src/mg/media/tsinfo.cpp`: 594-635, 986, 1066, 1135-1138

### Interleave

Queues and written lists per stream, the loop body as a step. Conservation invariant over arbitrary histories; C15 is refuted by a witness.

* `src/mg/media/mp4mux.h`: 160, 364-420
* `src/mg/media/mp4write.h`: 47, 791-906, 890-891, 956-999, 956-966, 964-965, 968-999, 969-991, 973-979, 1602-1618, 1645-1664, 1737-1750, 2106-2182, 2127-2180, 2137-2155, 2142-2155

### KeyText

The two conversion commands on the models of the codecs (modules Base64 and Strings), with the lines put on the wide output stream; which bytes the locale can show is a parameter. The specification is RFC 4648 (module Base64) and the reading of hexadecimal digits (module Strings). The bound of the bytes written by the decoder is proved with the number of bits waiting in each of its states. Not modelled: the formatted dump shown besides the text.

* `src/b64/src/cdecode.cpp`: 53, 78
* `src/mg/cbuffer.h`: 80-91
* `src/mgcli/cenc_provider.h`: 147-180
* `src/mgcli/mp4info.cpp`: 4646-4673, 4646-4711, 4662, 4675-4711, 4686

### Level

What `MP4Mux::end` does with the times: computed decoding times (`std::sort` as insertion sort, `std::lower_bound` as first index), levelling of the streams, and the way through `write_stts`, `write_ctts`, `write_edts` to `get_composition_time` and `get_stream_offset` of the reader. Specification: the presentation just before another (`Before`), the time a player shows a sample (`shown`). Induction over the samples from both ends (no composition offset means decoding = composition), erasing one time after another (span), arithmetic for the levelling; the error bounds of Tables are added up along the file. Not modelled: assertions, the debug build, LTC streams.

* `src/mg/media/mp4mux.h`: 364-371, 367-368
* `src/mg/media/mp4parse.h`: 1181-1196
* `src/mg/media/mp4write.h`: 212-245, 421-556, 688-716, 892-893, 1002-1008, 1010-1016, 1161-1212, 1268-1343, 1281-1287, 1299-1338, 1665-1692, 1673-1682, 1695-1710, 2266-2273, 2283-2318, 2292-2314, 2294-2306

### LoopThread

The thread that runs the event loop and the thread that uses it, as two processes whose steps interleave in any order (`runs` over any list of actions); the disk answers open requests in any order; libuv by its documentation (`uv_run` goes on while there are requests and nobody called `uv_stop`, the flag is cleared when it returns). Invariants over all histories; progress by a measure that every step of the loop thread decreases. Not modelled: weak memory (the flags are plain variables in the code), the length of the wait (a step of its own, with or without signal).

* `src/mg/core/file.cpp`: 253-258, 321-326, 393-398, 456-461
* `src/mg/core/thread.h`: 95
* `src/mg/core/uvbase.cpp`: 26-87, 33-72, 75-86
* `src/mg/core/uvbase.h`: 85-91, 112-196, 176-188, 176-193, 183-187

### Moof

The reader of media fragments (`MOOFReader`) and the command that makes a file out of fragments (`do_moof_mux`, `decrypt`). The file is its bytes and a position (the buffered reader is the subject of C53, C93, C94); values that the command does not use are skipped; `normalize_time` (double arithmetic) is an arbitrary function, the block cipher an arbitrary function to 16 bytes. Proved by following the reader box by box through what the model of the writer (module Fragment) produces, then induction over the fragments; defects are shown on concrete files, the endless `free` box for every number of rounds.

* `src/mg/media/MOOFReader.h`: 24-309, 27-53, 60-171, 62-164, 66-164, 113-158, 126, 136, 176-185, 196-216, 229-237, 239-250, 254-268, 270-281, 283-289
* `src/mg/media/mp4/cenc.fl`: 85-127, 128-184, 187-222, 227-251, 255-284
* `src/mg/media/mp4/mp4.fl`: 5, 96-137, 96-171, 154-168
* `src/mg/media/mp4/mp4_fragments.fl`: 69-102, 104-114, 116-186, 276-289, 307-322
* `src/mg/media/mp4parse.h`: 69, 242-604, 547-559, 576-580
* `src/mgcli/mp4info.cpp`: 3801-4165, 3801-3809, 3816-3900, 3846-3884, 4048-4157, 4056-4157, 4090-4149, 4092, 4107-4112, 4126-4141

### Movie

The movie file byte for byte: `write_moov` and everything below it for every stream, `rebase_streams`, `flush_all`, and the initialization segment of a fragmented presentation, written with the box writer of module Fragment (a file with a position, boxes closed by going back). First the writer is proved equal to an explicit list of boxes (`movieFile_eq`), including the second writing of the chunk offsets at remembered positions: the layout does not depend on the offset (`Holds`), so the overwritten bytes are exactly the table. The specification is an independent strict reader of ISO 14496-12 (boxes by type, tables with exact counts, chunk map, sample places, descriptions, edits, protection). Reading back is proved box by box; sample places from the partition of the samples into chunks (C10-C15); composed with the interleaving writer (C14) into one theorem from the history of add_sample calls to the samples a player gets. Times by C11. Floating point conversions are parameters; the clock is a parameter.

* `src/mg/media/mp4/cenc.fl`: 50-126
* `src/mg/media/mp4/mp4.fl`: 196-276, 212-221, 278-343, 281-290, 346-410, 399, 412-484, 449-477, 516-553, 664-682, 680, 695-785, 787-823, 825-860
* `src/mg/media/mp4/mp4_fragments.fl`: 39-61
* `src/mg/media/mp4fragmented.h`: 691-794, 740-746
* `src/mg/media/mp4mux.h`: 134-161, 264-274, 364-420
* `src/mg/media/mp4parse.h`: 1698-1731, 1706-1719, 1822-1839, 1827-1830
* `src/mg/media/mp4write.h`: 56, 165-187, 196-249, 315-320, 323-329, 331-343, 347-388, 392-419, 421-493, 430-491, 495-556, 505-551, 558-656, 580-653, 657-685, 688-716, 723-732, 736-751, 754-773, 776-789, 984-987, 1018-1028, 1086-1148, 1091-1103, 1111-1117, 1348-1429, 1348-1487, 1357-1407, 1414-1419, 1431-1487, 1439-1470, 1477-1480, 1602-1618, 1628-1643, 1762-1767, 2210-2240, 2213-2216, 2221-2235, 2237-2240, 2252-2258
* `src/mgmedia.h`: 34

### Parse

Opening of a movie file from its bytes: `MP4Reader::parse`, `CPM4Track::parse_boxes`, the handlers, sample entries, header boxes, edit lists and sample tables, as functions on the bytes left, with the parser's notion of the current box (which stays the last one at the end of the data), 64 bit arithmetic of sizes, and fuel for its loops and recursions (`endless`). The boxes the writer makes (module Movie) are read one after the other (Track, Minf, Entry, TrackRead, FileRead), then the tables are interpreted as in module Reader and shown to hold exactly the samples (`open_holds`); with C30 (reading loop) this gives the theorem from `add_sample` to `next_file_chunks`. The content of avcC and esds is a parameter here (modules H264, Esds). Defects: loops without end and lost bytes as witnesses over all contents. For every sequence of bytes (Steps1 to Steps4): each inner loop takes at least one byte a step or stands at the end of the data, where it stays; the loop over the file is a function of the place alone, so that a run that ends passes no place twice (a counting argument); hence the number of bytes and one bounds every run that ends. A condition on the numbers in the file (`Fits`, SpecFit.lean) makes every run end.

* `src/mg/core/bitstream.h`: 408-418, 795-806, 949-958, 1164
* `src/mg/media/TBitstream.h`: 35
* `src/mg/media/mp4/mp4.fl`: 95-169, 95-131, 103-107, 109-131, 156-159, 172-190, 208-253, 283-326, 359-394, 420-453, 524-560, 667-685, 717-752, 787-812
* `src/mg/media/mp4parse.h`: 35-54, 188-575, 202-226, 276-294, 502-506, 508-524, 547-558, 575-579, 659-843, 662-700, 776-803, 1031-1200, 1181-1197, 1188-1194, 1463-1496, 1463-1488, 1474-1480, 1499-1511, 1578-1596, 1592-1621, 1596-1618, 1624-1641, 1765-1778, 1780-1819, 1871-1882, 1884-1902, 1929-1940, 1942-1952, 2023-2028, 2036-2039, 2050-2068, 2071-2147, 2073-2147, 2097-2112, 2121-2141, 2149-2153, 2163-2170, 2591-2602, 2612-2668, 2618-2668, 2670-2674, 2686-2697

### Pes

PES header and time stamps by div/mod arithmetic.

* `src/mg/media/mp4/mpeg2ts.fl`: 558-566, 664-845, 692-716
* `src/mg/media/tswrite.h`: 27, 127-246, 133-155, 157-165, 167-218, 222-243

### Presentation

`CMP4DynamicInfo` over a sequence of `Add` calls: names and ids of the streams (`std::map` by name with `insert`), bit rates (a map of pointers, null included), registration of files at the current end of the stream, published points, ends, `rebase`. What the joiner publishes and where streams end is input, so the theorems hold for every joiner. The loops `get_by_index(i)` for i below the count, null pointers included, are shown to visit each stream once because the ids are a permutation of 0..n-1 (invariant); then each stream is followed alone by induction over the `Add` calls, and module Dynamic gives the look-up. Not modelled: codec private data, picture sizes, opening the other files of an `Add`.

* `src/mg/alxstring.h`: 869-874
* `src/mg/media/mp4dynamic.cpp`: 67-112, 121-234, 236-279, 250-256
* `src/mg/media/mp4dynamic.h`: 42-82, 134-147
* `src/mg/media/mp4dynamicinfo.h`: 496-523, 537-544, 546-559, 575-582, 585-594, 614-624, 787-810, 805, 812-834, 829, 836-844, 860-871, 873-884, 886-899, 916-935, 918-925, 962-982, 984-1131, 993-1083, 995-1005, 999, 1093-1128, 1095-1106, 1099, 1112-1122, 1133-1144, 1146-1158, 1169-1183, 1185-1202
* `src/mg/media/mp4edit.cpp`: 43-163, 45-162

### Promise

`CPromise` and its forwards as a list of nodes, handlers as a table. The calls of any history of attaching and one result are the calls of the specification that looks only at the handlers attached in the end; by an invariant on settled chains. Handlers that use the chain themselves are not modelled (each method runs under the recursive lock of its node).

* `src/mg/promises.h`: 34-46, 60-81, 83-99, 101-112, 118-130, 131-143

### Psi

The program tables: sections, program association and program map (mpeg2ts.fl), collection of their payload (`psi`), and `CTSProcessor`, which makes receivers from the tables and hands each packet to the receiver of its pid. Sections are specified as writers (`Spec.sectionBytes`, all header fields and reserved bits free). Proof by induction over the packets in three phases (association table, map, streams); the receivers are those of module Demux. `file_round_partial` joins tables, routing and receivers with the multiplexer: a file written by the program is read from its bytes alone.

* `src/mg/media/mp4/mpeg2ts.fl`: 274-286, 1076-1252, 1076-1087, 1089-1108, 1110-1136, 1117-1132, 1139-1240, 1178-1192, 1194-1236, 1214-1230
* `src/mg/media/ts.h`: 127-184, 236-527, 253-300
* `src/mg/media/tsparse.h`: 552-760, 571-592, 641-745, 651-664, 655-660, 684-722, 688-715, 830-890

### Publish

The search for segment points of audio on the opened tracks of module Reader, loop by loop with fuel (so that not ending is a result for every fuel), over any number of files with the rest kept in the object. The specification cuts the joined list of samples every so many samples, without any state; the proof is an induction over the files with the rest as invariant. Endless loops are theorems for every fuel.

* `src/mg/media/mp4dynamic.cpp`: 38-125, 300-447, 324-331, 335-345, 337-342, 386-391, 390-446, 437-442
* `src/mg/media/mp4dynamic.h`: 239-256, 396-401
* `src/mg/media/mp4dynamicinfo.h`: 964-969
* `src/mg/media/mp4parse.h`: 1365-1390, 1392-1437, 2224-2238
* `src/mgcli/mp4info.cpp`: 5604-5690

### Queue

The ring buffer on raw memory with item headers in it. Refinement to a list queue, for any history; growth copies into a fresh block with arbitrary contents.

* `src/mg/core/thread.cpp`: 56-80
* `src/mg/media/fixed_queue.h`: 56-72, 91-99, 101-110, 112-132, 134-169, 171-177, 179-202, 227-246, 259-273, 275-298, 300-485, 318, 324-359, 375-400, 405-484, 487-495, 500-507
* `src/mg/media/media_queue.h`: 82-173, 100-173, 155-165

### RangeMap

Binary search on sorted keys; invariant and termination.

* `src/mg/media/mp4parse.h`: 50, 71-242, 77-87, 92-126, 161-226, 182-195, 182-215, 197-214

### Rate

The size, length and bit rate of a track in the machine's numbers (products of unsigned int at 2^32, whole seconds), on the words of the sample size box read by module Parse. The specification compares the rate with bits by length without division. Proof by the bounds of integer division; witnesses for short tracks and for 4 GB. Not modelled: floating point; the text that shows the rate.

* `src/mg/media/mp4/mp4.fl`: 410
* `src/mg/media/mp4edit.cpp`: 136, 145, 152
* `src/mg/media/mp4parse.h`: 645, 776-803, 788-799, 2216-2253, 2220-2223, 2238-2253, 2721-2725, 2833-2843
* `src/mgcli/mp4info.cpp`: 2512, 5040

### Reader

The sample level reader: `pick_sample`, `next_file_chunks` with its two scans and 15 tries, `move`, and the loop of `add_frames_to_m4f`, over the parsed tables of module Tables. The reading loop is related to the lists of samples left in each track (`Rem`); one call either finds all of them empty or delivers the head of one, the first in the file. Positions after a move are bounded through the sample-number lookups (`startOf i ≤ τ ↔ i ≤ n`) and the two roundings; a fragment is then takeWhile and filter of the rest of the track, shown equal to the samples in the window whenever the end separates them.

* `src/mg/media/mp4fragmented.h`: 571-683, 608, 608-675, 619-657, 659-671
* `src/mg/media/mp4parse.h`: 56-61, 1089-1105, 1104-1105, 1221-1269, 2050-2068, 2071-2155, 2124-2126, 2130-2132, 2197-2200, 2297-2303, 2301, 2305-2311, 2309, 2313-2319, 2317, 2320-2326, 2323, 2339, 2343-2376, 2345, 2378-2382, 2387, 2408-2428, 2438-2447, 2453-2458, 2588-2602, 2680-2700, 2987-2990, 2998-3014, 3016-3066, 3018-3027, 3035-3061, 3069-3177, 3075-3162, 3087-3127, 3131-3150

### Remux

The loops of do_moof_mux over files and streams on top of module Moof; the composition with modules Fragment, Interleave, Movie, Parse and Reader: the packaged samples of a stream are shown to be what is added (induction over files and streams), and the theorem of module Parse carries them through the movie file.

* `src/mg/media/mp4mux.h`: 298-327
* `src/mg/media/mp4write.h`: 2106
* `src/mgcli/mp4info.cpp`: 3903-4165, 3943-3958, 3951-3952, 3958-4035, 4008-4030, 4040, 4042-4160, 4046-4158, 4084-4086

### Render

The three manifest writers as text producers; the specifications parse the text (XML, m3u8) and expand it as a player does.

* `src/mg/media/hls_renderer.h`: 41-64, 90-96, 98-111, 113-162, 119-135, 125-131, 163-176, 177-220, 182-204, 206-219, 206-211, 237-244, 246-253, 255-261, 263-270
* `src/mg/media/mp4dynamic.h`: 208-237
* `src/mg/media/mp4dynamicinfo.h`: 429-475, 654-680, 936-948, 1207-1394, 1209-1223, 1225-1231, 1233-1264, 1266-1303, 1270-1288, 1304-1334, 1335-1352, 1353-1377, 1386-1390
* `src/mg/media/mpd_renderer.h`: 28-53, 68-87, 70, 81-83, 89-134, 136-207, 138-155, 145-151, 209-241, 242-294, 244-265, 252-260, 307-372, 309-321, 311-318, 373-377
* `src/mg/media/tsinfo.cpp`: 1015-1033
* `src/mgcli/cenc_provider.h`: 431-439
* `src/mgcli/mp4info.cpp`: 5557-5647, 5574-5590, 5634-5647
* `src/mgmedia.h`: 30-42

### Request

How the publishing commands read their options: the checks of the counts, the two nested loops with their running indices into the lists of paths and bit rates, the inner loop over the languages, each end of the command (return code, exception, undefined behaviour). The specification is on the lists of values only: the paths and bit rates of the calls, joined, are the lists given. Proof by induction over the inputs with the lists that are left; joined with C107 (the values are those of the text) and with module Presentation (which file a segment comes from). Not modelled: the options for time scales, segment length and encryption.

* `src/mg/cmdline.h`: 518-521, 533-539
* `src/mg/media/mp4dynamic.h`: 134-147, 142, 326-328
* `src/mg/media/tsinfo.cpp`: 716-837, 718-765, 788-837, 807-818, 1377-1381
* `src/mgcli/mp4info.cpp`: 4748-4764, 5135-5325, 5140-5322, 5140-5182, 5217-5221, 5218, 5223-5224, 5227-5322, 5247-5301, 5251-5294, 5253-5293, 5258-5260, 5263-5266, 5288-5291, 5991-5996

### Resource

Handles, objects and counts with deletion; an object contains a handle. Invariant count = number of handles along all programs.

* `src/mg/cresource.h`: 44-60, 57-60, 62-75, 77-87, 89-92, 114-116, 121-127, 136-140, 163-171, 168-171, 182-196, 236-247

### Slice

Picture parameter sets (`pic_parameter_set_rbsp`), the part of slice headers that is read (`slice_header` up to its early return), SEI type and size and the loop over the NAL units of a sample (`parse_h264_header`) are modelled on the readers of module H264 (bits, Exp-Golomb codes over a bounded buffer with arbitrary memory behind it). Specification: the syntax tables of ITU-T H.264 as functions from values to bits. Proved by composing `Reads` lemmas (a parser reads exactly these bits, whatever follows), the loop by induction on the list of units; the end of the parameter set (extension or not) by counting bits. The uninitialised `field_pic_flag` is a parameter of the model. Not modelled: picture timing SEI, the lines behind the early return in `slice_header`, reading scaling lists is modelled but nothing is claimed about it.

* `src/mg/media/mp4/h264.fl`: 286-427, 288-299, 288-418, 305-362, 314-345, 366-374, 378-416, 385-410, 604-745, 640-665, 696-700, 731-738, 879-900
* `src/mg/media/mp4parse.h`: 1558-1575
* `src/mgcli/mp4info.cpp`: 281-306, 2983-3123, 2993-3008, 2998-3004, 3005-3115, 3013-3115, 3118

### Span

The times of whole streams on top of the tables of modules Tables and Reader. The ordered array of presentation times is a sorted permutation of the samples (module Tables), so its ends are the minimum and maximum; without offsets the search over up to 100 samples at either end is shown to change nothing, by induction; that a track opens only if nothing is shown before the first sample is the converse of the invariant of `parse_ctts`.

* `src/mg/media/mp4parse.h`: 48, 1364-1436, 1365-1392, 1374-1383, 1394-1422, 1405-1413, 1424-1434, 2224-2237, 2384-2388, 2390-2394, 2396-2400, 2867-2871, 2873-2877
* `src/mgcli/mp4info.cpp`: 2808-2809, 2810-2811

### Strings

Split, join, replace, hex on byte lists; induction.

* `src/mg/alxstring.h`: 67-69, 481-505, 538-562, 564-574, 636-646, 786-803, 806-824
* `src/mg/splitter.h`: 32-36, 51-90, 62-88, 97-104, 114-128

### Tables

The run-length loops of write_stts/ctts/stsc/stsz/stss over sample lists and the reader's loops over arbitrary tables. Invariants of the loops; time scaling is an arbitrary parameter.

* `src/mg/media/mp4parse.h`: 611-630, 623-628, 662-727, 681-712, 715-724, 729-757, 776-803, 805-817, 821-838, 840-875, 868-871, 906-910, 912-916, 958-999, 974-977, 987-996, 1033-1076, 1050-1071, 1055-1065, 1079-1154, 1097-1138, 1108-1137, 1155-1180, 1167-1175, 1199-1219, 1221-1269, 1273-1296, 1324-1333, 1346-1358
* `src/mg/media/mp4write.h`: 199-204, 205-210, 212-245, 300-310, 421-493, 434, 440-475, 454-462, 486-489, 495-556, 518-525, 527-541, 558-656, 581-655, 591-617, 657-685, 723-751, 754-773, 791-903, 796-818, 1150-1154

### TimeCode

Arithmetic of time codes on 32 bit fields (`TC`), with the size of `long` as a parameter (it decides whether a borrow is noticed); the specification counts frames since midnight. The thinning of a time code stream while writing and the interpolation while reading are joined over the reader of module Reader: a history is cut into runs, by induction the state of the writer after a sample is the next time code expected, and the reader finds the stored sample of a run. The decoder of linear time code is three registers; the invariant says they hold the last 80 bits as one number, a field is a division and a remainder. That no word is found inside the sequence is proved from the zeros that every binary coded digit and the sync word have (twelve ones never fit anywhere else). Bi-phase by induction over the bits.

* `src/mg/core/core.h`: 56
* `src/mg/media/WaveParser.h`: 243-280, 282-291, 293-299, 310-317, 319-336, 338-391, 342-377, 393-400, 402-413, 443-455, 479-484, 508-511, 513-574, 581-616, 618-639, 641-668, 670-687, 690-709, 771-772, 798-845, 894-985
* `src/mg/media/mp4/ltcextension.fl`: 23-30, 24, 28, 34-40
* `src/mg/media/mp4parse.h`: 3188-3267, 3234-3265
* `src/mg/media/mp4write.h`: 1488-1492, 1522-1526, 1532-1580

### Ts

Packet construction of output_ts with all adaptation field cases, PAT and PMT. Arithmetic case split and list reassembly; counters by induction on histories.

* `src/mg/media/mp4/mpeg2ts.fl`: 128-145, 899-993, 899-925, 913-925, 1078-1110, 1112-1138, 1176-1253, 1255-1310
* `src/mg/media/tswrite.h`: 265-654, 276-279, 276-290, 292-302, 319-364, 369-372, 374-382, 384-393, 395-567, 405-420, 441-465, 446-465, 446-498, 468, 471-492, 494-506, 508, 533-544, 535, 552, 569-612, 569-603, 614-619, 624-652, 643-649

### TsMux

The multiplexer on top of Ts and Pes: the receiver is the specification. Induction over histories of samples.

* `src/mg/media/mp4/aac.fl`: 57-71, 73-82, 151-208
* `src/mg/media/tsmux.h`: 38-617, 59, 88-100, 102-129, 131-162, 139-146, 164-232, 164-191, 182-185, 274-286, 290-349, 351, 357-406, 395-406, 408-439, 442-466, 468-480, 493-497, 536-574, 609-615, 632-757, 669-733, 735-745

### Validation

The callback object as a state machine over the calls of add_frames_to_m4f; the invariant ties its arrays to the last sample and the last total in the calls so far; the messages are characterised as a set for every sequence of calls, and lists of files are handled by induction over fragments and files.

* `src/mg/media/mp4fragmented.h`: 601-688, 601-606, 604, 654-657, 656, 685-688, 687
* `src/mgcli/fragment_validation.h`: 22-94, 29-30, 34-41, 38-39, 43-92, 61-65, 73-77

## What is not modelled

* UI/CLI glue in `mgcli/mp4info.cpp`, argument parsing, console output, exception texts and debug output.
* libuv event loop and OS file access (files are byte lists; opening, closing and errors of the OS are not modelled).
* Floating point arithmetic itself (time scaling is a parameter where doubles are used), AES itself (the block function is a parameter).
* The parsers of boxes not listed above, the Flavor compiler (the `.fl` descriptions are read as the code they describe).
* Memory allocation failures.
* Preemption inside a member function, except in the modules that model interleavings explicitly.

## Testing the theorems

`seeded/LOG.jsonl` lists edits of the model that a realistic bug would cause, and the theorems that failed to prove afterwards.
