{"id": "C01", "title": "Bit extraction is exact at every position", "statement": "Reading n bits (0<=n<=24) from a bitstream buffer returns exactly the unsigned integer formed most-significant-bit-first by the next n bits of the input bytes, and moves the read position forward by exactly n bits; consequently a sequence of reads returns consecutive, non overlapping slices of the input whatever the alignment.", "quantifier": "for every input byte string, every bit position in it, every width 0..24 and every sequence of reads", "why_tests_cant": "Tests sample a few alignments and contents; the claim ranges over all byte strings, all 8 alignments and all read histories.", "anchors": ["decoder/ia_core_coder_bitbuffer.c:ia_core_coder_read_bits_buf", "decoder/ia_core_coder_common_initfuncs.c:ia_core_coder_create_init_bit_buf"]}
{"id": "C02", "title": "Bit reading never touches memory outside the caller's buffer and fails exactly when input is short", "statement": "Starting from a freshly opened buffer, any sequence of read/peek/skip requests of at most 24 bits (skips of any non-negative size) never reads a byte outside the supplied buffer; a request fails with 'insufficient input' if and only if fewer bits remain than requested, and a failing request consumes nothing.", "quantifier": "for every buffer, every finite history of read/peek/skip requests", "why_tests_cant": "Over-reads at the very last byte depend on the exact alignment and history; fuzzing cannot cover all histories.", "anchors": ["decoder/ia_core_coder_bitbuffer.c:ia_core_coder_read_bits_buf", "decoder/ia_core_coder_bitbuffer.c:ia_core_coder_show_bits_buf", "decoder/ia_core_coder_bitbuffer.c:ia_core_coder_skip_bits_buf"]}
{"id": "C03", "title": "Peek and skip agree with read", "statement": "Peeking n bits returns the same value that reading n bits would return and leaves the stream position unchanged; skipping n bits leaves the stream in the same state as reading and discarding those n bits.", "quantifier": "for every buffer, position and width 0..24 (skip: every non-negative width)", "why_tests_cant": "Universal over positions/contents; the three routines are separately coded.", "anchors": ["decoder/ia_core_coder_bitbuffer.c:ia_core_coder_show_bits_buf", "decoder/ia_core_coder_bitbuffer.c:ia_core_coder_skip_bits_buf"]}
{"id": "C04", "title": "Bit writer and bit reader are inverse", "statement": "Writing any sequence of (value,width) fields with the bit writer into a large enough buffer and then reading the same widths back with the bit reader returns the same values (each value reduced modulo 2^width), and the writer reports the total number of bits written.", "quantifier": "for every finite sequence of fields with widths 1..24 whose total fits in the buffer, every initial buffer content", "why_tests_cant": "Round-trip over all field sequences/alignments is infinite.", "anchors": ["decoder/ia_core_coder_bitbuffer.c:impeghd_write_bits_buf", "decoder/ia_core_coder_bitbuffer.c:impeghd_create_write_bit_buffer", "decoder/ia_core_coder_bitbuffer.c:ia_core_coder_read_bits_buf"]}
{"id": "C05", "title": "Escape-coded integers round-trip", "statement": "Every unsigned integer up to the maximum representable with widths (b1,b2,b3) that is written with the escape writer is returned by the escape reader, both use the same number of bits, and smaller encodings are preferred as the standard requires.", "quantifier": "for every value and every width triple with each width 1..24", "why_tests_cant": "Infinite family of values/width triples; boundary values 2^b-1 are the ones tests miss.", "anchors": ["decoder/ia_core_coder_bitbuffer.c:impeghd_write_escape_value", "decoder/ia_core_coder_init_config.c:ia_core_coder_read_escape_value", "decoder/impeghd_mhas_parse.c:impeghd_mhas_parse"]}
{"id": "C06", "title": "32-bit fields can be read at any bit position", "statement": "A request for a 32-bit field returns the next 32 bits of the stream at any bit position, with no undefined behaviour.", "quantifier": "for every buffer with at least 32 bits left and every bit position", "why_tests_cant": "Depends on alignment of preceding variable-length fields.", "anchors": ["decoder/ia_core_coder_bitbuffer.c:ia_core_coder_read_bits_buf", "decoder/ia_core_coder_bitbuffer.c:ia_core_coder_read_bits_buf_32", "decoder/impeghd_mhas_parse.c:impeghd_mhas_parse", "decoder/impeghd_binaural.c"]}
{"id": "C07", "title": "Parsing depends only on the remaining bits", "statement": "Any syntax element parser built from the reader (fields of at most 24 bits and skips) gives the same parsed values, the same errors and consumes the same number of bits for two buffers whose remaining bits are equal, regardless of alignment, address or surrounding bytes; it never reads outside the buffer.", "quantifier": "for every parser program over the reader primitives, every pair of buffers with the same remaining bits", "why_tests_cant": "Quantifies over all parsers and all alignments.", "anchors": ["decoder/ia_core_coder_bitbuffer.c", "decoder/impeghd_mhas_parse.c", "decoder/ia_core_coder_init_config.c"]}
{"id": "C08", "title": "The packet walk over an MHAS stream always terminates", "statement": "For every byte string handed to the packet parser, the walk over packets ends after finitely many packets, each inner iteration consuming at least 16 bits of input (the minimal packet header), and it returns either at a configuration/frame/PCM packet, or with an error / insufficient-input indication.", "quantifier": "for every input byte string", "why_tests_cant": "Non-termination on hostile input cannot be excluded by finitely many inputs.", "anchors": ["decoder/impeghd_mhas_parse.c:impeghd_mhas_parse"]}
{"id": "C09", "title": "Packets of unhandled type are skipped exactly", "statement": "A packet whose type the decoder does not handle has no effect other than advancing the input by its header and its declared payload length; decoding continues with the next packet as if the packet had not been present.", "quantifier": "for every unhandled packet type, label, length and payload and every following stream", "why_tests_cant": "All payload contents/lengths and every continuation.", "anchors": ["decoder/impeghd_mhas_parse.c:impeghd_mhas_parse"]}
{"id": "C10", "title": "Malformed sync packets are rejected", "statement": "A sync packet is accepted only if its payload length is one byte and that byte is 0xA5; every other sync packet makes the call return the sync error.", "quantifier": "for every stream positioned at a sync packet", "why_tests_cant": "All lengths/payloads.", "anchors": ["decoder/impeghd_mhas_parse.c:impeghd_mhas_parse"]}
{"id": "C11", "title": "Escape-coded packet labels are accepted", "statement": "A packet header whose label uses the largest escape (label >= 258) is parsed with defined behaviour and yields the encoded label value.", "quantifier": "for every 32-bit label escape value and stream alignment", "why_tests_cant": "Needs reasoning on all alignments/values; the typical test stream never uses such labels.", "anchors": ["decoder/impeghd_mhas_parse.c:impeghd_mhas_parse", "decoder/ia_core_coder_bitbuffer.c:ia_core_coder_read_bits_buf"]}
{"id": "C12", "title": "Audio scene information never overruns its tables", "statement": "Parsing audio scene information never writes outside the group, switch-group and preset tables: on acceptance the number of groups is at most 16, switch groups at most 8 and presets at most 8, and all member/condition counts index inside their tables.", "quantifier": "for every bit string supplied as audio scene information", "why_tests_cant": "Hostile counts; all inputs.", "anchors": ["decoder/impeghd_mhas_parse.c:impeghd_mae_asi_parse", "decoder/impeghd_mhas_parse.c:impeghd_mae_asi_group_def", "decoder/impeghd_mhas_parse.c:impeghd_mae_asi_data_parse", "decoder/impeghd_mhas_parse.c:impeghd_mae_asi_group_presets_def_ext"]}
{"id": "C13", "title": "Accepted scene information has unique identifiers", "statement": "When group, switch-group or preset definitions are accepted, no two groups share an id, no two switch groups share an id, no two presets share an id.", "quantifier": "for every bit string accepted as scene information", "why_tests_cant": "Pairwise claim over all accepted inputs.", "anchors": ["decoder/impeghd_mhas_parse.c"]}
{"id": "C14", "title": "Every signalled group member is kept", "statement": "After accepting a group definition that signals k members (1<=k<=128), the decoder's group has k members, and the whole member list has been consumed from the stream.", "quantifier": "for every group definition, k in 1..128", "why_tests_cant": "Only the extreme count 128 wraps; tests use small groups.", "anchors": ["decoder/impeghd_mhas_parse.c:impeghd_mae_asi_group_def"]}
{"id": "C15", "title": "Each scene data set is used at most once", "statement": "Scene information that repeats a data set of the same known type is rejected.", "quantifier": "for every data set sequence", "why_tests_cant": "All sequences.", "anchors": ["decoder/impeghd_mhas_parse.c"]}
{"id": "C16", "title": "Unknown scene data sets are skipped exactly", "statement": "A scene data set of unknown type and length L bytes (0<=L<65536) is skipped completely, parsing continues right after it.", "quantifier": "for every length and content", "why_tests_cant": "Lengths >= 32768 are never exercised by tests.", "anchors": ["decoder/impeghd_mhas_parse.c"]}
{"id": "C17", "title": "Earcon tables cannot be overrun", "statement": "Parsing earcon information never writes outside the earcon tables, for every signalled number of earcons.", "quantifier": "for every bit string supplied as earcon information", "why_tests_cant": "Boundary count only.", "anchors": ["decoder/impeghd_mhas_parse.c:impeghd_econ_config_info"]}
{"id": "C18", "title": "PCM data packets: frame size look-up stays in its table", "statement": "For every PCM data packet the frame size used is one of the tabulated sizes or the explicitly coded size and no look-up leaves the table.", "quantifier": "for every PCM config/data payload", "why_tests_cant": "Explicit frame sizes 0..65535.", "anchors": ["decoder/impeghd_mhas_parse.c:impeghd_pcm_data_payload"]}
{"id": "C19", "title": "PCM packet samples are sign-extended correctly", "statement": "Samples of PCM data packets coded with 16, 24 and 32 bits are delivered as the two's complement value of the coded field.", "quantifier": "for every coded sample value", "why_tests_cant": "2^32 values.", "anchors": ["decoder/impeghd_mhas_parse.c:ia_sign_extend_16", "decoder/impeghd_mhas_parse.c:ia_sign_extend_24"]}
{"id": "C20", "title": "No leak and no bad free for any allocation failure", "statement": "If the application's allocator fails at any point during creation, or never fails, then a subsequent delete frees every block that was successfully allocated exactly once and nothing else.", "quantifier": "for every pattern of allocator success/failure and every allocator addresses", "why_tests_cant": "Failure injection at every allocation point combined with every address is not enumerable by unit tests.", "anchors": ["decoder/impeghd_api.c:ia_mpegh_dec_create", "decoder/impeghd_api.c:ia_mpegh_dec_delete"]}
{"id": "C21", "title": "Deleting twice is harmless", "statement": "Calling delete a second time on the same decoder object frees nothing again.", "quantifier": "for every successful or failed creation", "why_tests_cant": "History property.", "anchors": ["decoder/impeghd_api.c:ia_mpegh_dec_delete"]}
{"id": "C22", "title": "Creation reports invalid configuration values", "statement": "If any configuration value passed to create is outside its documented range, create returns an error code different from 'no error'.", "quantifier": "for every configuration", "why_tests_cant": "All configurations; currently depends on the order of two assignments.", "anchors": ["decoder/impeghd_api.c:ia_mpegh_dec_create", "decoder/impeghd_api.c:impeghd_set_config_params"]}
{"id": "C23", "title": "Configuration values in effect are always in range", "statement": "After configuration handling the values in effect for output word size, target layout, preset, effect type and loudness are inside their documented ranges whatever was requested.", "quantifier": "for every requested configuration", "why_tests_cant": "All 32-bit request values.", "anchors": ["decoder/impeghd_api.c:impeghd_set_config_params", "decoder/impeghd_api.c:impeghd_set_default_config"]}
{"id": "C24", "title": "Resampling ratio matches the sampling rates", "statement": "Whenever the decoder accepts a pair of (stream rate, output rate) for resampling, output_rate * down_factor = stream_rate * up_factor and the output frame length is 1024*up/down.", "quantifier": "for every pair of sampling rates", "why_tests_cant": "All pairs of 32-bit rates; unsupported pairs are what tests miss.", "anchors": ["decoder/impeghd_api.c:impeghd_resampler_get_sampling_ratio"]}
{"id": "C25", "title": "Every call makes progress and never over-consumes", "statement": "Every decode call reports at least one byte consumed when it fails and never reports more bytes consumed than were provided, so a caller that drops the consumed bytes always terminates.", "quantifier": "for every input, every outcome of the inner decoder (success, error, unexpected end)", "why_tests_cant": "Over all outcomes; progress is a liveness property.", "anchors": ["decoder/impeghd_api.c:ia_core_coder_dec_execute", "decoder/impeghd_api.c:ia_mpegh_dec_execute"]}
{"id": "C26", "title": "Decode before initialisation is refused without side effects", "statement": "Calling execute before initialisation succeeded returns the init error, produces no output bytes and does not touch decoder state.", "quantifier": "for every call history that does not contain a successful init", "why_tests_cant": "History property.", "anchors": ["decoder/impeghd_api.c:ia_mpegh_dec_execute"]}
{"id": "C27", "title": "PCM output is the correctly rounded-toward-zero, clipped, little-endian sample", "statement": "For 16- and 24-bit output each sample written is the value truncated toward zero after clipping to the signed range, little-endian, interleaved by channel, and the number of bytes reported equals samples*channels*bytes per sample.", "quantifier": "for every finite sample value, every frame size and channel count", "why_tests_cant": "All sample values and sizes.", "anchors": ["decoder/ia_core_coder_decode_main.c:ia_core_coder_samples_sat"]}
{"id": "C28", "title": "32-bit PCM output never overflows", "statement": "For 32-bit output each finite sample is clipped so that the conversion to a 32-bit integer is defined.", "quantifier": "for every finite float sample", "why_tests_cant": "Only values at or above 2^31 trigger it.", "anchors": ["decoder/ia_core_coder_decode_main.c:ia_core_coder_samples_sat", "decoder/ia_core_coder_cnst.h:MAX_FLT_VAL_32"]}
{"id": "C29", "title": "Start-up delay is trimmed exactly once over the whole stream", "statement": "Over any sequence of decoded frames the concatenated output is the concatenated decoded signal with exactly the first D samples per channel removed, where D is the start-up delay, no matter how D compares to the frame sizes.", "quantifier": "for every delay and every sequence of frame sizes", "why_tests_cant": "Over all frame sequences.", "anchors": ["decoder/ia_core_coder_decode_main.c:ia_core_coder_samples_sat"]}
{"id": "C30", "title": "Audio pre-roll parsing stays inside its buffers", "statement": "Parsing an audio pre-roll never writes beyond the config buffer or the pre-roll offset table, for every pre-roll payload.", "quantifier": "for every pre-roll payload", "why_tests_cant": "Hostile lengths.", "anchors": ["decoder/ia_core_coder_decode_main.c:ia_core_coder_audio_preroll_parsing"]}
{"id": "C31", "title": "Arithmetic decoding keeps its interval invariant", "statement": "After every decoded symbol 0<=low<=value<=high<=65535 and high-low>=16384; no intermediate product overflows 32 bits; the symbol is inside the alphabet and no read leaves the frequency table.", "quantifier": "for every bitstream, every valid cumulative frequency table and every number of decoded symbols", "why_tests_cant": "State invariant over unbounded executions.", "anchors": ["decoder/ia_core_coder_arith_dec.c:ia_core_coder_arith_decode", "decoder/ia_core_coder_arith_dec.c:ia_core_coder_arith_first_symbol"]}
{"id": "C32", "title": "Arithmetic decoding inverts arithmetic encoding", "statement": "For every sequence of symbols, decoding the bits produced by the reference encoder with the same frequency tables returns the original sequence.", "quantifier": "for every symbol sequence and every sequence of valid frequency tables", "why_tests_cant": "Infinite family of sequences.", "anchors": ["decoder/ia_core_coder_arith_dec.c:ia_core_coder_arith_decode"]}
{"id": "C33", "title": "Spectral decoding terminates on every bitstream", "statement": "Decoding a spectral tuple (including the unbounded escape loop) ends after finitely many symbols for every input, also when the input is exhausted.", "quantifier": "for every bitstream and decoder state", "why_tests_cant": "Termination on all inputs.", "anchors": ["decoder/ia_core_coder_arith_dec.c:ia_core_coder_arth_decoding_level2"]}
{"id": "C34", "title": "Context table look-up is correct", "statement": "The probability model selected for a context equals the one a linear search of the published tables gives and the search never indexes outside the tables.", "quantifier": "for every 32-bit context value", "why_tests_cant": "2^32 contexts.", "anchors": ["decoder/ia_core_coder_arith_dec.c:ia_core_coder_arith_get_pk"]}
{"id": "C35", "title": "32-bit saturating operators return the clamped exact result", "statement": "Saturating add, subtract, shift-left, multiply, negate and absolute value return the mathematically exact result clamped to the 32-bit range.", "quantifier": "for every pair of 32-bit operands (and every shift count in range)", "why_tests_cant": "2^64 operand pairs.", "anchors": ["decoder/ia_core_coder_basic_ops32.h"]}
{"id": "C36", "title": "Normalisation shift is the maximal safe shift", "statement": "The norm of a 32-bit value is the largest left shift that keeps the value in 32-bit range (31 for 0 and -1).", "quantifier": "for every 32-bit value", "why_tests_cant": "2^32 values and a loop.", "anchors": ["decoder/ia_core_coder_basic_ops32.h:ia_core_coder_norm32"]}
{"id": "C37", "title": "Integer square root is correctly rounded", "statement": "For every x with 0 <= x < 2^62 the rounded 64-bit square root returns the integer nearest to the real square root of x.", "quantifier": "for every 64-bit value x with 0 <= x < 2^62 (outside that range the routine does not compute a square root)", "why_tests_cant": "2^63 values.", "anchors": ["decoder/ia_core_coder_basic_ops40.h:ia_core_coder_rounded_sqrt64"]}
{"id": "C38", "title": "64-bit saturating operators return the clamped exact result", "statement": "64-bit saturating add, subtract, multiply and the 64-to-32 saturation return the exact result clamped, with no undefined behaviour.", "quantifier": "for every pair of 64-bit operands", "why_tests_cant": "2^128 operand pairs.", "anchors": ["decoder/ia_core_coder_basic_ops40.h"]}
{"id": "C39", "title": "Decoded object positions are always in range", "statement": "After decoding object metadata for any sub-frame, every object's azimuth is in [-180,180], elevation in [-90,90], and spread width in [0,180].", "quantifier": "for every bitstream, number of objects and sub-frame number", "why_tests_cant": "All bitstreams and histories.", "anchors": ["decoder/impeghd_oam_dec_ld.c:impeghd_limit_range_ld_obj_md", "decoder/impeghd_oam_dec_ld.c:impeghd_descale_ld_obj_md"]}
{"id": "C40", "title": "Differential object metadata never overflows", "statement": "Accumulating differential object metadata over an arbitrarily long stream never overflows the integer that stores it.", "quantifier": "for every stream length", "why_tests_cant": "Needs millions of frames.", "anchors": ["decoder/impeghd_oam_dec_ld.c:impeghd_single_dyn_obj_md"]}
{"id": "C41", "title": "'Keep' flags repeat the previous frame's values", "statement": "In enhanced object metadata, a frame that signals 'keep' for exclusion sectors, divergence or diffuseness has exactly the previous frame's values.", "quantifier": "for every sequence of frames", "why_tests_cant": "History property.", "anchors": ["decoder/impeghd_oam_dec.c:impeghd_enh_obj_md_frame"]}
{"id": "C42", "title": "The peak limiter never exceeds its threshold", "statement": "Every sample produced by the limiter has magnitude at most the limiter threshold.", "quantifier": "for every signal, channel count and number of frames", "why_tests_cant": "All signals; recursive filter with infinite memory.", "anchors": ["decoder/impeghd_peak_limiter.c:impeghd_peak_limiter_process"]}
{"id": "C43", "title": "The limiter look-ahead maximum is exact", "statement": "At each sample the level used by the limiter equals the maximum magnitude over the current and the preceding attack-time samples of all channels.", "quantifier": "for every signal, channel count and history", "why_tests_cant": "Circular-buffer invariant over all histories.", "anchors": ["decoder/impeghd_peak_limiter.c:impeghd_peak_limiter_process"]}
{"id": "C44", "title": "The limiter is transparent below the threshold and independent of framing", "statement": "A signal that never exceeds the threshold is output unchanged, delayed by exactly the attack time, and the output does not depend on how the signal is split into frames.", "quantifier": "for every signal below the threshold; every split into frames", "why_tests_cant": "All signals and splits.", "anchors": ["decoder/impeghd_peak_limiter.c:impeghd_peak_limiter_process"]}
{"id": "C45", "title": "Channel-pair index decoding is a bijection", "statement": "The multichannel tool's pair index decodes to a pair of distinct channels, every pair is reachable by exactly one index, and the number of bits read is just enough to code all indices.", "quantifier": "for every number of channels", "why_tests_cant": "Unbounded number of channels.", "anchors": ["decoder/impeghd_multichannel.c:impeghd_mc_parse_ch_pair"]}
{"id": "C46", "title": "Variable-length codeword decoding stays in its table", "statement": "Decoding a codeword from a code table returns the entry whose codeword is a prefix of the input and consumes exactly its length.", "quantifier": "for every bit string and every complete prefix-free table ordered by length", "why_tests_cant": "All tables and inputs.", "anchors": ["decoder/ia_core_coder_huff_tools.c:ia_core_coder_huff_codeword", "decoder/impd_drc_dynamic_payload.c:impd_drc_update_value"]}
{"id": "C47", "title": "Interaction data refer only to existing groups", "statement": "User interaction data accepted while scene information is present refer only to groups that exist in the scene.", "quantifier": "for every interaction data payload and scene", "why_tests_cant": "All payloads.", "anchors": ["decoder/impeghd_ele_interaction_intrfc.c:impeghd_ei_grp_intrctvty_status"]}
{"id": "C48", "title": "Scene rotation acts on the object position", "statement": "Scene displacement rotates the object's position rigidly: the distance to the origin is preserved and the result depends on the object's position.", "quantifier": "for every object position and rotation angle", "why_tests_cant": "All real positions and angles.", "anchors": ["decoder/impeghd_scene_displacement.c:impeghd_rotate_cart_coord"]}
{"id": "C49", "title": "DRC delta-time code table is a uniquely decodable code", "statement": "The generated delta-time code table assigns every time delta in range its own codeword, no codeword is a prefix of another, and decoding inverts encoding.", "quantifier": "for every table size parameter for which the table fits its array", "why_tests_cant": "Unbounded parameter family.", "anchors": ["decoder/impd_drc_extr_delta_coded_info.c:impd_drc_create_delta_time_code_tbl", "decoder/impd_drc_dynamic_payload.c:impd_drc_update_value"]}
{"id": "C50", "title": "Configuration change is detected exactly", "statement": "During decoding a new configuration packet triggers re-initialisation if and only if its length or content differs from the active configuration.", "quantifier": "for every pair of configuration payloads", "why_tests_cant": "All byte strings.", "anchors": ["decoder/ia_core_coder_decode_main.c:ia_core_coder_dec_main"]}
{"id": "C51", "title": "Switch group definitions are read back as coded", "statement": "A switch group definition coded with any number of members from 1 to 32 is stored with exactly the coded id, flags, member list and default group, and exactly its bits are consumed.", "quantifier": "for every codable switch group definition, every table position and every following stream", "why_tests_cant": "All member lists and continuations; off-by-one in the largest count.", "anchors": ["decoder/impeghd_mhas_parse.c:impeghd_mae_asi_switch_group_def"]}
{"id": "C52", "title": "Presets are checked against the groups they reference", "statement": "A preset definition is accepted, and stored as coded, exactly when every gain or position change it makes is permitted by the interactivity flags of the group it references.", "quantifier": "for every group table and codable preset definition", "why_tests_cant": "Needs groups and presets at different table positions with different permissions.", "anchors": ["decoder/impeghd_mhas_parse.c:impeghd_mae_asi_group_presets_def"]}
{"id": "C53", "title": "Known scene data sets occupy exactly their declared length", "statement": "A scene data set of a known type that declares L bytes (0<=L<65536) is followed by the next data set exactly L bytes after its header; contents that need more than L bytes are rejected.", "quantifier": "for every known type, declared length and content", "why_tests_cant": "Lengths >= 32768 and inconsistent lengths are never produced by an encoder under test.", "anchors": ["decoder/impeghd_mhas_parse.c:impeghd_mae_asi_data_parse"]}
{"id": "C54", "title": "Creation writes only inside the blocks it was given", "statement": "Every byte cleared or written by create lies inside a block returned by the application's allocator, when the allocator grants the number of bytes asked for.", "quantifier": "for every allocator (addresses and success pattern) and every structure size", "why_tests_cant": "Overruns of 1 to 8 bytes stay invisible with common allocators.", "anchors": ["decoder/impeghd_api.c:ia_mpegh_dec_create", "decoder/impeghd_api.c:impeghd_alloc_and_assign_mem"]}
{"id": "C55", "title": "Pre-roll output is discarded exactly", "statement": "When a frame carries an audio pre-roll, the output the application sees is exactly the output of the frame's own access unit, whatever the sizes of the outputs of the access units.", "quantifier": "for every pair of output sizes and contents", "why_tests_cant": "Sizes differ only when the start-up delay is trimmed in the same call.", "anchors": ["decoder/impeghd_api.c:ia_mpegh_dec_execute"]}
{"id": "C56", "title": "Change of the pre-roll configuration is detected exactly", "statement": "A configuration carried in an audio pre-roll is taken for a new one if and only if it differs from the one carried before.", "quantifier": "for every pair of configurations up to 285 bytes", "why_tests_cant": "All pairs of byte strings.", "anchors": ["decoder/ia_core_coder_decode_main.c:ia_core_coder_dec_main"]}
{"id": "C57", "title": "Spectral decoding has no undefined behaviour", "statement": "Decoding the spectrum of a window reads and writes only inside its context and coefficient arrays and no signed arithmetic overflows.", "quantifier": "for every bitstream, context and number of tuples up to 512", "why_tests_cant": "Needs tuples with 30 or more escape symbols, which no encoder produces.", "anchors": ["decoder/ia_core_coder_arith_dec.c:ia_core_coder_arth_decoding_level2"]}
{"id": "C58", "title": "Sign bits give every coefficient its sign", "statement": "After the sign pass every coefficient is its decoded magnitude, negated if its sign bit is 0, for every magnitude the escape decoding can produce (0..2^31-1); coefficients that are 0 have no sign bit.", "quantifier": "for every list of magnitudes and every bitstream", "why_tests_cant": "Magnitudes above 2^30 never occur in encoder output.", "anchors": ["decoder/ia_core_coder_arith_dec.c:ia_core_coder_arth_decoding_level2"]}
{"id": "C59", "title": "Object metadata parsing stays inside its arrays", "statement": "Parsing the object metadata and the enhanced object metadata of a frame never accesses an array of the metadata state outside its bounds.", "quantifier": "for every bitstream, configuration, sub-frame split and history", "why_tests_cant": "All bitstreams and histories.", "anchors": ["decoder/impeghd_oam_dec_ld.c:impeghd_obj_md_low_delay_dec", "decoder/impeghd_oam_dec.c:impeghd_enh_obj_md_frame"]}
{"id": "C60", "title": "Objects are rendered with the most recent metadata", "statement": "Every sub-frame of an audio frame is rendered with the object metadata received last before or in that sub-frame.", "quantifier": "for every pattern of present and absent sub-frame metadata over any number of frames", "why_tests_cant": "Depends on the pattern of two consecutive frames.", "anchors": ["decoder/ia_core_coder_decode_main.c:impeghd_obj_md_dec_ren_process"]}
{"id": "C61", "title": "Differential metadata refer to the most recent metadata", "statement": "Differentially coded object metadata give the metadata received last plus the coded differences.", "quantifier": "for every history, number of sub-frames and differences", "why_tests_cant": "Depends on history across frames.", "anchors": ["decoder/impeghd_oam_dec_ld.c:impeghd_single_dyn_obj_md"]}
{"id": "C62", "title": "Exclusion sectors take the same bits on every platform", "statement": "The four angles of an exclusion sector take 7+7+5+5 bits, whatever their values and whatever the platform the decoder is compiled for.", "quantifier": "for every sector and both definitions of the minimum and maximum operators", "why_tests_cant": "Needs builds for several platforms.", "anchors": ["decoder/impeghd_oam_dec.c:impeghd_enh_obj_md_frame", "decoder/impeghd_intrinsics_flt.h:ia_min_flt"]}
{"id": "C63", "title": "Absolutely coded object metadata are decoded as written", "statement": "The metadata of one object written with the fields of the intra coding are decoded to the same values, both in intra-coded and in absolutely coded dynamic data, and exactly the bits written are consumed.", "quantifier": "for every configuration and all values in range", "why_tests_cant": "All values and configurations.", "anchors": ["decoder/impeghd_oam_dec_ld.c:impeghd_single_dyn_obj_md", "decoder/impeghd_oam_dec_ld.c:impeghd_ic_obj_md_ld_dec"]}
{"id": "C64", "title": "Intra-coded metadata go to the objects of their sub-frame", "statement": "Intra-coded metadata of several objects, each parameter written as fixed, common or one by one, replace exactly the values of the objects of the sub-frame being decoded.", "quantifier": "for every number of objects, sub-frame, way of writing and all values in range", "why_tests_cant": "All combinations of ways to write the parameters.", "anchors": ["decoder/impeghd_oam_dec_ld.c:impeghd_ic_obj_md_ld_dec"]}
{"id": "C65", "title": "The limiter never amplifies", "statement": "Every sample output by the limiter lies between zero and the input sample one attack time earlier.", "quantifier": "for every signal, channel count and number of frames", "why_tests_cant": "All signals; recursive filter with infinite memory.", "anchors": ["decoder/impeghd_peak_limiter.c:impeghd_peak_limiter_process"]}
{"id": "C66", "title": "The DRC delta-time table fits its array", "statement": "Initialising the DRC decoder for a sampling rate and frame length that pass its checks writes the delta-time code table inside its array.", "quantifier": "for every sampling rate and frame length", "why_tests_cant": "All explicit sampling rates; the overrun is silent.", "anchors": ["decoder/impd_drc_init.c:impd_drc_init_bitstream_dec", "decoder/impd_drc_extr_delta_coded_info.c:impd_drc_create_delta_time_code_tbl"]}
{"id": "C67", "title": "Multichannel payload parsing stays inside its arrays", "statement": "Parsing the multichannel coding data of a frame reads and writes only inside the per-box and per-band arrays, the channel map and the channel tables, and leaves the state fit for the next frame.", "quantifier": "for every payload and every history of frames", "why_tests_cant": "Unbounded histories; overruns are silent.", "anchors": ["decoder/impeghd_multichannel.c:impeghd_mc_parse", "decoder/impeghd_multichannel.c:impeghd_mc_parse_ch_pair", "decoder/impeghd_multichannel.c:impeghd_mc_decode_huffman"]}
{"id": "C68", "title": "Rotation angles are table indices", "statement": "Every rotation angle the multichannel tool decodes is an index of its sine and cosine tables.", "quantifier": "for every payload and every history of frames", "why_tests_cant": "Needs a particular earlier frame and a payload that ends inside a codeword.", "anchors": ["decoder/impeghd_multichannel.c:impeghd_mc_parse", "decoder/impeghd_multichannel.c:impeghd_mc_decode_huffman", "decoder/impeghd_multichannel.c:impeghd_apply_mc_rotation"]}
{"id": "C69", "title": "Rotation preserves energy", "statement": "Applying the rotation boxes keeps the energy of every pair of spectral lines up to the six-decimal accuracy of the tables, and stays inside tables and spectra.", "quantifier": "for all spectra, angles, masks and band layouts", "why_tests_cant": "All real spectra and band layouts.", "anchors": ["decoder/impeghd_multichannel.c:impeghd_mc_process", "decoder/impeghd_multichannel.c:impeghd_apply_mc_rotation"]}
{"id": "C70", "title": "The downmix of a box's output is the downmix it was given", "statement": "The downmix that stereo filling computes from two channels with a box's coefficients is the downmix from which that box would have made those channels.", "quantifier": "for all spectra, coefficients, masks and band layouts", "why_tests_cant": "All real spectra and band layouts.", "anchors": ["decoder/impeghd_multichannel.c:impeghd_mc_get_prev_dmx", "decoder/impeghd_multichannel.c:impeghd_apply_mc_inverse_rotation", "decoder/impeghd_multichannel.c:impeghd_mc_process"]}
{"id": "C71", "title": "Stereo filling uses the previous spectrum of the same channel", "statement": "The spectrum kept for a channel of a multichannel-coded signal group is the one stereo filling uses for that channel in the next frame.", "quantifier": "for all signal groups", "why_tests_cant": "Needs a stream with several multichannel-coded groups.", "anchors": ["decoder/ia_core_coder_process.c:ia_core_coder_usac_process"]}
{"id": "C72", "title": "CICP layout tables are well formed", "statement": "Every accepted CICP layout index names as many different loudspeakers as the count table says, all with a geometry entry and a mirror partner; every other index is rejected without touching the output.", "quantifier": "for every layout index", "why_tests_cant": "Each index and each loudspeaker of three parallel tables.", "anchors": ["decoder/impeghd_cicp_2_geometry.c:impeghd_cicpidx_2_ls_geometry", "decoder/impeghd_cicp_2_geometry_rom.c:ia_cicp_idx_ls_set_map_tbl"]}
{"id": "C73", "title": "A speaker configuration yields the geometry it names", "statement": "The geometry a speaker configuration produces is that of the named layout or listed loudspeakers; configurations without a geometry are rejected, and no memory outside the arrays is read.", "quantifier": "for every configuration payload", "why_tests_cant": "Needs stale pointers and unusual layout types.", "anchors": ["decoder/ia_core_coder_init_config.c:impeghd_speaker_config_3d"]}
{"id": "C74", "title": "Flexible loudspeaker descriptions stay inside their arrays", "statement": "Parsing a flexible loudspeaker configuration of up to 24 loudspeakers never leaves the array of descriptors, although a pair fills two entries at once.", "quantifier": "for every payload, number of loudspeakers up to 24 and previous array contents", "why_tests_cant": "All payloads; the pair at the last position.", "anchors": ["decoder/ia_core_coder_init_config.c:impeghd_flexispk_config", "decoder/ia_core_coder_init_config.c:impeghd_spk_description"]}
{"id": "C75", "title": "Loudspeaker descriptions depend on the payload only", "statement": "How many bits a loudspeaker description takes does not depend on what the descriptor held before.", "quantifier": "for every payload and previous contents", "why_tests_cant": "Depends on stale memory.", "anchors": ["decoder/ia_core_coder_init_config.c:impeghd_spk_description"]}
{"id": "C76", "title": "Loudspeaker angles are in range", "statement": "Every accepted flexible loudspeaker description has its azimuth within 180 degrees and its elevation within 90 degrees.", "quantifier": "for every payload", "why_tests_cant": "All angle codes at both precisions.", "anchors": ["decoder/ia_core_coder_init_config.c:impeghd_flexispk_config", "decoder/ia_core_coder_init_config.c:impeghd_spk_description"]}
{"id": "C77", "title": "A symmetric pair is mirrored", "statement": "When a loudspeaker is announced as a symmetric pair, the second one has the opposite azimuth and the same elevation.", "quantifier": "for every description and position in the array", "why_tests_cant": "All descriptions.", "anchors": ["decoder/ia_core_coder_init_config.c:impeghd_flexispk_config"]}
{"id": "C78", "title": "Interaction data stay inside the scene tables", "statement": "Parsing user interaction data never reads or writes outside the group, preset and request tables.", "quantifier": "for every payload and every scene", "why_tests_cant": "Needs a scene with more groups than presets fit.", "anchors": ["decoder/impeghd_ele_interaction_intrfc.c:impeghd_ele_interaction", "decoder/impeghd_ele_interaction_intrfc.c:impeghd_ele_interaction_data", "decoder/impeghd_ele_interaction_intrfc.c:impeghd_ei_grp_intrctvty_status"]}
{"id": "C79", "title": "Interaction values are kept as coded", "statement": "User interaction data leave exactly the coded identifiers, switches, WIRE outputs, offsets, gains, preset and zoom area, and consume exactly their bits.", "quantifier": "for every list of requests, every previous contents and every following stream", "why_tests_cant": "All request lists and values above 255.", "anchors": ["decoder/impeghd_ele_interaction_intrfc.c:impeghd_ele_interaction", "decoder/impeghd_ele_interaction_intrfc.c:impeghd_ei_grp_intrctvty_status", "decoder/impeghd_ele_interaction_intrfc.c:impeghd_lcl_zoom_area_size"]}
{"id": "C80", "title": "Local setup stays inside the loudspeaker arrays", "statement": "Parsing and dequantising the local loudspeaker setup never writes outside the loudspeaker arrays.", "quantifier": "for every payload and previous setup", "why_tests_cant": "16-bit loudspeaker count.", "anchors": ["decoder/impeghd_ele_interaction_intrfc.c:impeghd_loud_spk_ren", "decoder/impeghd_ele_interaction_intrfc.c:impeghd_loud_spk_inv_quant"]}
{"id": "C81", "title": "Local setup values", "statement": "Dequantised calibration gains lie in -32 to 31.5 dB and loudspeaker angles within 180 and 90 degrees, and each gain of that range can be sent.", "quantifier": "for every payload and previous setup", "why_tests_cant": "All payloads; existence of an encoding for each value.", "anchors": ["decoder/impeghd_ele_interaction_intrfc.c:impeghd_loud_spk_inv_quant", "decoder/impeghd_ele_interaction_intrfc.c:impeghd_loud_spk_ren"]}
{"id": "C82", "title": "Cartesian to polar conversion inverts polar to Cartesian", "statement": "Converting a polar position to Cartesian coordinates and back gives the same azimuth, elevation and distance.", "quantifier": "for every position with positive distance", "why_tests_cant": "All real positions.", "anchors": ["decoder/impeghd_3d_vec_basic_ops.c:impeghd_cart_2_pol", "decoder/impeghd_3d_vec_basic_ops.c:impeghd_pol_2_cart"]}
{"id": "C83", "title": "A zero scene displacement changes nothing", "statement": "With all displacement values zero every object keeps its position; in any case displaced positions stay in the range of the angles.", "quantifier": "for every position and displacement", "why_tests_cant": "All real positions.", "anchors": ["decoder/impeghd_scene_displacement.c:impeghd_apply_scene_displacement", "decoder/impeghd_scene_displacement.c:impeghd_rotate_cart_coord"]}
{"id": "C84", "title": "An accepted configuration is within its declared limits", "statement": "Every accepted configuration has a supported sampling rate and frame length index, 1 to 16 signal groups of known kinds, a reference layout within the tables, no more signals and reference loudspeakers than the level in use allows, more than 16 only as objects, and for more than 16 only elements of the allowed kinds.", "quantifier": "for every configuration payload and every previous decoder state", "why_tests_cant": "Needs every combination of groups, elements, extensions and levels.", "anchors": ["decoder/ia_core_coder_init_config.c:ia_core_coder_mpegh_3da_config", "decoder/ia_core_coder_headerdecode.c:impegh_3daudio_config_dec"]}
{"id": "C85", "title": "The declared profile level is the one that is checked", "statement": "A configuration that declares a profile level is accepted only if it stays within the limits of that level.", "quantifier": "for every configuration payload", "why_tests_cant": "Depends on a list of compatible levels elsewhere in the payload.", "anchors": ["decoder/ia_core_coder_init_config.c:ia_core_coder_mpegh_3da_config", "decoder/ia_core_coder_init_config.c:impeghd_compatible_profile_level_set"]}
{"id": "C86", "title": "A new configuration replaces the old one", "statement": "What a configuration payload is read as does not depend on the configuration before it.", "quantifier": "for every payload and every earlier configuration", "why_tests_cant": "Needs sequences of configurations.", "anchors": ["decoder/ia_core_coder_headerdecode.c:impegh_3daudio_config_dec", "decoder/ia_core_coder_init_config.c:ia_core_coder_mpegh_3da_config"]}
{"id": "C87", "title": "Baseline level 3 with more than 16 signals is flagged", "statement": "For an accepted baseline configuration with more than 16 signals the flag for that case is set, and it is clear otherwise.", "quantifier": "for every configuration payload and previous state", "why_tests_cant": "Needs all levels with all signal counts.", "anchors": ["decoder/ia_core_coder_init_config.c:ia_core_coder_mpegh_3da_config"]}
{"id": "C88", "title": "Element configurations end where their length says", "statement": "The configuration of an extension element takes exactly the announced number of bytes for every type, one that needs more is refused, and stored payload bytes are kept unchanged.", "quantifier": "for every element type, length, and payload", "why_tests_cant": "All lengths against all contents.", "anchors": ["decoder/ia_core_coder_init_config.c:ia_core_coder_ext_element_config"]}
{"id": "C89", "title": "Configuration extensions end where their length says", "statement": "A configuration extension takes exactly the announced number of bytes.", "quantifier": "for every extension type, length and payload", "why_tests_cant": "Needs lengths that do not fit the contents.", "anchors": ["decoder/ia_core_coder_init_config.c:ia_core_coder_config_extension"]}
{"id": "C90", "title": "At most one loudness and one pre-roll element", "statement": "A configuration with two dynamic range elements or two pre-roll elements is refused.", "quantifier": "for every configuration payload", "why_tests_cant": "Needs repeated elements.", "anchors": ["decoder/ia_core_coder_init_config.c:ia_core_coder_ext_element_config"]}
{"id": "C91", "title": "Group information is read for every group", "statement": "Group information for n groups gives each group its priority and position flag and takes 4 bits for each.", "quantifier": "for every number of groups and every value", "why_tests_cant": "Reads one entry too many.", "anchors": ["decoder/ia_core_coder_init_config.c:impeghd_sig_group_info"]}
{"id": "C92", "title": "Switch groups need element lengths", "statement": "A configuration with switch groups in its audio scene information is accepted only if elements carry their lengths.", "quantifier": "for every configuration payload", "why_tests_cant": "The check looks at the scene read before.", "anchors": ["decoder/ia_core_coder_init_config.c:ia_core_coder_config_extension"]}
{"id": "C93", "title": "Downmix configurations are read as sent", "statement": "Every downmix configuration with up to 6 identifiers and matrices of any coded length is read back with its identifiers and layouts.", "quantifier": "for every downmix configuration", "why_tests_cant": "All lengths of matrices up to 4607 bits.", "anchors": ["decoder/ia_core_coder_init_config.c:impeghd_parse_dmx_ext_config"]}
{"id": "C94", "title": "Object metadata configuration keeps the flag of each object", "statement": "The screen-relative flag of every declared object and the other fields of an object metadata configuration are read as sent.", "quantifier": "for every number of objects and every flag list", "why_tests_cant": "Needs two groups that together have more than 24 objects.", "anchors": ["decoder/impeghd_oam_dec.c:impeghd_obj_md_cfg", "decoder/ia_core_coder_init_config.c:ia_core_coder_ext_element_config"]}
{"id": "C95", "title": "Unsupported object metadata frame lengths are refused", "statement": "An element with an object metadata frame length other than 256, 512 and 1024 samples is refused.", "quantifier": "for every coded frame length", "why_tests_cant": "The error code is dropped by the caller.", "anchors": ["decoder/impeghd_oam_dec.c:impeghd_obj_md_cfg", "decoder/ia_core_coder_init_config.c:ia_core_coder_ext_element_config"]}
{"id": "C96", "title": "Divergence stays within the object limits", "statement": "An enhanced object metadata configuration is accepted only if the objects, with two extra for each with divergence, are at most 24 and the rendered ones at most 16; it is read inside its arrays.", "quantifier": "for every payload, number of objects up to 24 and previous contents", "why_tests_cant": "All combinations of divergence flags of 24 objects.", "anchors": ["decoder/impeghd_oam_dec.c:impeghd_enh_obj_md_config"]}
{"id": "C97", "title": "Every decoded channel has its own output", "statement": "The channel map of an accepted configuration sends the channels to different outputs.", "quantifier": "for every configuration payload", "why_tests_cant": "Needs shifted channel pairs and more than 24 channels.", "anchors": ["decoder/ia_core_coder_init_config.c:ia_core_coder_map_ele_to_channel", "decoder/ia_core_coder_init_config.c:ia_core_coder_cpe_config", "decoder/ia_core_coder_init_config.c:ia_core_coder_decoder_config"]}
{"id": "C98", "title": "The channel map points to existing outputs", "statement": "Writing a frame with the channel map of an accepted configuration stays inside the table of output positions.", "quantifier": "for every configuration payload", "why_tests_cant": "Needs a large channel shift in the last pair.", "anchors": ["decoder/ia_core_coder_init_config.c:ia_core_coder_cpe_config", "decoder/ia_core_coder_decode_main.c:ia_core_coder_samples_sat"]}
{"id": "C99", "title": "Reading a configuration stays inside the decoder's tables", "statement": "Whatever the payload, reading a configuration never touches memory outside the tables it fills.", "quantifier": "for every configuration payload and every earlier configuration", "why_tests_cant": "All payloads of any length.", "anchors": ["decoder/ia_core_coder_init_config.c:ia_core_coder_mpegh_3da_config", "decoder/ia_core_coder_init_config.c:ia_core_coder_decoder_config", "decoder/ia_core_coder_init_config.c:ia_core_coder_config_extension"]}
{"id": "C100", "title": "A limiter that is switched off only delays", "statement": "With the limiter switched off, after the fade the output of every call is the input delayed by the attack time, without loss or gain.", "quantifier": "for every sequence of input blocks, every number of channels and every limiter state", "why_tests_cant": "All block sizes against all positions in the delay line.", "anchors": ["decoder/impeghd_peak_limiter.c:impeghd_peak_limiter_process", "decoder/impeghd_peak_limiter.c:impeghd_cpy_delay_samples"]}
{"id": "C101", "title": "A decode call that fails reports no output", "statement": "After an execute call that returns an error the number of output bytes is 0; after a successful one it is the number of bytes written.", "quantifier": "for every decoder state, input and order of calls", "why_tests_cant": "Needs an error after a good frame and a caller that looks at the count.", "anchors": ["decoder/impeghd_api.c:ia_mpegh_dec_execute", "decoder/impeghd_api.c:ia_core_coder_dec_execute"]}
{"id": "C102", "title": "Groups that ask for a position or gain get one", "statement": "When audio scene information is present, interaction data are accepted only if every group that is switched on and allows position (gain) interactivity is given a position (gain).", "quantifier": "for every scene with up to 16 groups and every interaction payload", "why_tests_cant": "All orders of groups with all combinations of permissions.", "anchors": ["decoder/impeghd_ele_interaction_intrfc.c:impeghd_ei_grp_intrctvty_status", "decoder/impeghd_ele_interaction_intrfc.c:impeghd_ele_interaction_data"]}
{"id": "C103", "title": "Extension payloads belong to the access unit", "statement": "After an access unit has been parsed, the payload handed to the user of every extension element is exactly what this access unit carries for it, and empty if the element is absent.", "quantifier": "for every configuration, every payload of up to 1536 bytes and every memory left by earlier frames", "why_tests_cant": "Needs elements with index 2 and above that are sometimes absent, and comparison of the bytes handed on.", "anchors": ["decoder/ia_core_coder_process.c:ia_core_coder_read_ext_element", "decoder/ia_core_coder_process.c:ia_core_coder_usac_process", "decoder/impeghd_api.c:ia_core_coder_dec_execute"]}
{"id": "C104", "title": "Extension payloads stay inside their buffers", "statement": "Whatever the access units contain, payload bytes are written inside the element's buffer of 1536 bytes and the length handed on never exceeds it.", "quantifier": "for every sequence of calls, access units and configurations", "why_tests_cant": "Every length in every order over any number of frames.", "anchors": ["decoder/ia_core_coder_process.c:ia_core_coder_read_ext_element", "decoder/impeghd_api.c:ia_core_coder_dec_execute"]}
{"id": "C105", "title": "Fragmented extension payloads are put together", "statement": "A payload cut into fragments over several access units is handed on as the concatenation of the fragments.", "quantifier": "for every payload and every way to cut it", "why_tests_cant": "Few encoders use fragments.", "anchors": ["decoder/ia_core_coder_process.c:ia_core_coder_read_ext_element"]}
{"id": "C106", "title": "Dynamic range gains follow the coded curve", "statement": "As long as all frames succeed, every sample of a channel with a single-band gain is multiplied by the value of the polygon through all coded gain nodes, over all frames since the first gain payload, delayed by one frame and the configured delay.", "quantifier": "for every sequence of frames and payloads, every gain configuration, delay and sample", "why_tests_cant": "The curve joins nodes across frames; a slip of one sample at a joint is inaudible in a test and only shows for certain node times.", "anchors": ["decoder/ia_core_coder_decode_main.c:impeghd_uni_drc_dec_process", "decoder/impd_drc_gain_dec.c:impd_drc_get_gain", "decoder/impd_drc_gain_dec.c:impd_drc_concatenate_segments", "decoder/impd_drc_gain_dec.c:impd_drc_interpolate_drc_gain", "decoder/impd_drc_gain_dec.c:impd_drc_advance_buf", "decoder/impd_drc_process.c:impd_drc_td_process"]}
{"id": "C107", "title": "Gain payloads never lead outside the gain buffers", "statement": "Whatever gain payloads the frames carry, the decoder reads and writes the node arrays and the gain buffers inside their bounds.", "quantifier": "for every sequence of payloads, accepted or refused", "why_tests_cant": "Needs a refused payload followed by a frame without one.", "anchors": ["decoder/ia_core_coder_decode_main.c:impeghd_uni_drc_dec_process", "decoder/impd_drc_dynamic_payload.c:impd_drc_read_uni_drc_gain", "decoder/impd_drc_dynamic_payload.c:impd_drc_read_drc_gain_sequence", "decoder/impd_drc_dynamic_payload.c:impd_drc_read_spline_nodes", "decoder/impd_drc_gain_dec.c:impd_drc_concatenate_segments", "decoder/impd_drc_gain_dec.c:impd_drc_interpolate_drc_gain"]}
{"id": "C108", "title": "Applied gains stay in the range of the coded ones", "statement": "The factor of every sample lies between the least and the greatest of 1 and the factors of the coded gains; gains against clipping with a peak target never amplify; without offset, boost and compression never turn attenuation into amplification.", "quantifier": "for every execution, sample, gain modifier and monotone power function", "why_tests_cant": "An overshoot between nodes only shows for particular node times.", "anchors": ["decoder/impd_drc_gain_dec.c:impd_drc_interpolate_drc_gain", "decoder/impd_drc_gain_dec.c:impd_drc_conv_gain_db_to_linear_domain", "decoder/impd_drc_process.c:impd_drc_td_process"]}
{"id": "C109", "title": "Frames without a gain payload hold the last gain", "statement": "In a frame that has no gain payload the gain stays at the last coded value.", "quantifier": "for every execution", "why_tests_cant": "Needs a stream in which payloads are left out.", "anchors": ["decoder/ia_core_coder_decode_main.c:impeghd_uni_drc_dec_process", "decoder/impd_drc_gain_dec.c:impd_drc_concatenate_segments"]}
{"id": "C110", "title": "Accepted gain payloads can be applied", "statement": "If the parser accepts the gain payload of a frame, the gains of the frame can be applied without an error.", "quantifier": "for every execution and payload", "why_tests_cant": "The node reservoir is rarely used by encoders.", "anchors": ["decoder/ia_core_coder_decode_main.c:impeghd_uni_drc_dec_process", "decoder/impd_drc_dynamic_payload.c:impd_drc_read_drc_gain_sequence", "decoder/impd_drc_gain_dec.c:impd_drc_interpolate_drc_gain"]}
{"id": "C111", "title": "Gain payloads are decoded as coded", "statement": "The payload that codes given time differences, first gains and gain differences for all bands of all gain sets decodes to the node times and gains they stand for, and exactly the bits of the payload are read.", "quantifier": "for every list of gain sets, bands and coded values, at every sampling rate from 3000 Hz on", "why_tests_cant": "Infinitely many payloads.", "anchors": ["decoder/impd_drc_dynamic_payload.c:impd_drc_read_uni_drc_gain", "decoder/impd_drc_dynamic_payload.c:impd_drc_read_drc_gain_sequence", "decoder/impd_drc_dynamic_payload.c:impd_drc_read_spline_nodes", "decoder/impd_drc_dynamic_payload.c:impd_drc_decode_times", "decoder/impd_drc_dynamic_payload.c:impd_drc_decode_gains", "decoder/impd_drc_dynamic_payload.c:impd_drc_decode_slopes", "decoder/impd_drc_dynamic_payload.c:impd_drc_get_initial_gain"]}
{"id": "C112", "title": "Extensions of a gain payload are skipped", "statement": "Extensions at the end of a gain payload, of any type and length, change nothing and are skipped.", "quantifier": "for every payload and every list of extensions", "why_tests_cant": "No encoder writes them yet.", "anchors": ["decoder/impd_drc_dynamic_payload.c:impd_drc_read_uni_drc_gain_ext"]}
{"id": "C113", "title": "Spectra are decoded as coded", "statement": "Decoding the published context-adaptive arithmetic code of a spectrum followed by its sign bits gives the spectrum, leaves the reader exactly behind it, and leaves as context for the next window the weights the coder computes.", "quantifier": "for every spectrum, every context left by the last window, every number of coded pairs and whatever follows in the bit stream", "why_tests_cant": "The code of a pair depends on all pairs before it and on the last window; the number of spectra is astronomic.", "anchors": ["decoder/ia_core_coder_arith_dec.c:ia_core_coder_arth_decoding_level2", "decoder/ia_core_coder_arith_dec.c:ia_core_coder_arith_get_context", "decoder/ia_core_coder_arith_dec.c:ia_core_coder_arith_get_pk", "decoder/ia_core_coder_arith_dec.c:ia_core_coder_arith_decode"]}
{"id": "C114", "title": "Fixed metadata of objects keep their value", "statement": "A metadata parameter that intra-coded metadata declare fixed keeps its value in the dynamic metadata that follow and takes no bits there.", "quantifier": "for every combination of fixed parameters, every object and every coded value", "why_tests_cant": "Only streams that use the fixed flags show it.", "anchors": ["decoder/impeghd_oam_dec_ld.c:impeghd_single_dyn_obj_md", "decoder/impeghd_oam_dec_ld.c:impeghd_obj_md_low_delay_dec"]}
{"id": "C115", "title": "Metadata reach the renderer in the published units", "statement": "After the metadata of a sub-frame have been read, azimuth, elevation, radius, gain, spread and priority of every object of the sub-frame are its coded values times the published steps, and those of other sub-frames are unchanged but for the limits.", "quantifier": "for every payload, history, number of objects and sub-frame", "why_tests_cant": "An offset into the wrong sub-frame shows only with several sub-frames.", "anchors": ["decoder/impeghd_oam_dec_ld.c:impeghd_descale_ld_obj_md", "decoder/impeghd_oam_dec_ld.c:impeghd_limit_range_ld_obj_md", "decoder/impeghd_oam_dec_ld.c:impeghd_obj_md_low_delay_dec"]}
{"id": "C116", "title": "Loudness information is decoded as coded", "statement": "Reading the published code of a set of loudness information gives every entry with its identifiers, peaks and measurements, leaves the reader exactly behind it, and says what every entry is about: the programme, a group, a preset.", "quantifier": "for every set of at most 36 entries and 36 album entries, every number of measurements, all their values and whatever the memory held", "why_tests_cant": "Albums with group entries are rare in test material; an error shows only in the loudness of the output.", "anchors": ["decoder/impd_drc_static_payload.c:impd_drc_mpegh3da_parse_loudness_info_set", "decoder/impd_drc_static_payload.c:impd_drc_parse_loudness_info", "decoder/impd_drc_static_payload.c:impd_drc_parse_loudness_measure"]}
{"id": "C117", "title": "Loudness information stays within its arrays", "statement": "Reading a set of loudness information never writes outside the arrays of entries.", "quantifier": "for every payload", "why_tests_cant": "The counts have 6 bits and the arrays 36 elements; only crafted payloads use more.", "anchors": ["decoder/impd_drc_static_payload.c:impd_drc_mpegh3da_parse_loudness_info_set", "decoder/impd_drc_static_payload.c:impd_drc_parse_loudness_info_set_ext"]}
{"id": "C118", "title": "A DRC configuration stays within its arrays", "statement": "Reading a DRC configuration never writes or reads outside the arrays of gain sets, gain sequences, channels, groups and instructions.", "quantifier": "for every payload, every downmix known to the decoder and whatever the memory held", "why_tests_cant": "The counts have 6 bits and the arrays 24 and 32 elements; only crafted payloads go beyond them.", "anchors": ["decoder/impd_drc_static_payload.c:impd_drc_parse_config", "decoder/impd_drc_static_payload.c:impd_drc_parse_coeff", "decoder/impd_drc_static_payload.c:impd_drc_parse_drc_instructions"]}
{"id": "C119", "title": "Accepted DRC configurations are well formed", "statement": "In a DRC configuration the decoder accepts, every gain set has at most 4 bands with characteristics the tables have, sequences are numbered without gaps within the 24, every channel has a gain set that exists or none, every group has a gain set that exists, derived gains and bands agree with the gain sets, and the instructions that stand for no DRC come last.", "quantifier": "for every payload the decoder accepts", "why_tests_cant": "Later stages index with these values without checking; a test sees only configurations encoders write.", "anchors": ["decoder/impd_drc_static_payload.c:impd_drc_parse_config", "decoder/impd_drc_static_payload.c:impd_drc_parse_coeff", "decoder/impd_drc_static_payload.c:impd_drc_parse_gain_set_params", "decoder/impd_drc_static_payload.c:impd_drc_gen_instructions_derived_data"]}
{"id": "C120", "title": "Channels are grouped as coded", "statement": "In an accepted DRC instruction channels are in one group exactly when they are coded with the same gain set (and, with ducking of the channels themselves, the same factor), the group has that gain set, and channels without gain set are in no group.", "quantifier": "for every accepted payload, every instruction and every pair of channels", "why_tests_cant": "A wrong grouping applies the gain of other channels, which is inaudible in most material.", "anchors": ["decoder/impd_drc_static_payload.c:impd_drc_parse_drc_instructions", "decoder/impd_drc_static_payload.c:impd_drc_decode_ducking_scaling"]}
{"id": "C121", "title": "Ducking of other channels uses one gain sequence", "statement": "In an accepted instruction that ducks other channels all driving channels have the same gain set.", "quantifier": "for every accepted payload and every instruction that ducks other channels", "why_tests_cant": "Encoders never write two different driving gain sets, so only a crafted configuration shows whether it is refused.", "anchors": ["decoder/impd_drc_static_payload.c:impd_drc_parse_drc_instructions"]}
{"id": "C122", "title": "Gain modifiers reach the bands they are coded for", "statement": "In an accepted instruction without ducking every band of a group has the modifiers that were coded for it.", "quantifier": "for every accepted payload, instruction, group and band", "why_tests_cant": "Needs several sets of coefficients, several bands and modifiers at once.", "anchors": ["decoder/impd_drc_static_payload.c:impd_drc_parse_drc_instructions", "decoder/impd_drc_static_payload.c:impd_drc_decode_gain_modifiers"]}
{"id": "C123", "title": "DRC coefficients are decoded as coded", "statement": "Reading the published code of DRC coefficients gives every gain set with its profile, flags, characteristics and the places where bands start, and leaves the reader exactly behind it.", "quantifier": "for every set of at most 24 gain sets and 24 sequences, all their values and whatever the memory held", "why_tests_cant": "Border indices have ten bits; encoders use few of them.", "anchors": ["decoder/impd_drc_static_payload.c:impd_drc_parse_coeff", "decoder/impd_drc_static_payload.c:impd_drc_parse_gain_set_params"]}
{"id": "C124", "title": "Groups without group information have default priorities", "statement": "After a configuration without group information all its signal groups have priority 7 and fixed positions.", "quantifier": "for every configuration payload and every configuration before it", "why_tests_cant": "Needs two configurations in a row, the first with audio scene and group information.", "anchors": ["decoder/ia_core_coder_headerdecode.c:impegh_3daudio_config_dec", "decoder/ia_core_coder_init_config.c:impeghd_sig_group_info"]}
{"id": "C125", "title": "Of the compatible levels the least counts", "statement": "A list of compatible profile levels is read to its end and gives the least level of the low complexity profile and the least level of the baseline profile it names.", "quantifier": "for every list of 1 to 16 levels in any order", "why_tests_cant": "Streams list one or two levels, in falling or rising order by convention.", "anchors": ["decoder/ia_core_coder_init_config.c:impeghd_compatible_profile_level_set"]}
{"id": "C126", "title": "Channels are converted when they need it", "statement": "With another number of loudspeakers than channels the format converter is on, and with the reference layout and as many loudspeakers as channels it is off.", "quantifier": "for every configuration payload with channels and every layout the application asks for", "why_tests_cant": "Combinations of layouts, downmixes and extensions are many and tests use few.", "anchors": ["decoder/ia_core_coder_init_config.c:ia_core_coder_mpegh_3da_config"]}
{"id": "C127", "title": "Layouts of channel groups are compared with their own channels", "statement": "A group of channels with a layout of its own is refused only if that layout has neither as many loudspeakers as the group has channels nor at most as many as the reference layout.", "quantifier": "for every group, layout, reference layout and groups before it", "why_tests_cant": "Streams with several groups of channels with own layouts are rare.", "anchors": ["decoder/ia_core_coder_init_config.c:ia_core_coder_mpegh_3da_config"]}
{"id": "C128", "title": "DRC instructions are decoded as coded", "statement": "A DRC instruction that the decoder accepts holds what was coded: the group or preset it is for, identifier, location, downmix identifiers, effect types, limiter target, target loudness range, dependency, the gain set (and ducking factor) of every channel, and the modifiers of every group.", "quantifier": "for every instruction an encoder can write, every memory before it and everything that follows", "why_tests_cant": "An instruction has dozens of optional fields; tests use a few profiles of an encoder.", "anchors": ["decoder/impd_drc_static_payload.c:impd_drc_parse_drc_instructions", "decoder/impd_drc_static_payload.c:impd_drc_parse_instrns_effect_not_self_other", "decoder/impd_drc_static_payload.c:impd_drc_parse_instrns_effect_self_other", "decoder/impd_drc_static_payload.c:impd_drc_decode_gain_modifiers", "decoder/impd_drc_static_payload.c:impd_drc_decode_ducking_scaling"]}
{"id": "C129", "title": "Only defined loudness measurements are accepted", "statement": "Every measurement in a loudness information set that the decoder accepts is of a defined method and a defined measurement system.", "quantifier": "for every loudness payload and every memory before it", "why_tests_cant": "Reserved codes do not occur in test streams.", "anchors": ["decoder/impd_drc_static_payload.c:impd_drc_parse_loudness_measure", "decoder/impd_drc_static_payload.c:impd_drc_decode_method_value", "decoder/impd_drc_static_payload.c:impd_drc_mpegh3da_parse_loudness_info_set"]}
{"id": "C130", "title": "The loudness of a set is the preferred measurement for it", "statement": "With loudness normalisation the loudness of a DRC set is taken from the loudness information for the first of (downmix, set), (any downmix, set), (downmix, any set), (downmix, no set), ... that has a program or anchor loudness for the whole programme or a requested group or preset; of these, information for presets comes before groups before the programme, of groups that of the set and else the largest, and of an entry the program loudness with the most preferred measurement system, or anchor loudness. The gain is what is missing to the target. Without any the gain is 0.", "quantifier": "for every request, list of loudness information and DRC set", "why_tests_cant": "The search order has nine steps with three kinds of entries; test streams have one or two entries.", "anchors": ["decoder/impd_drc_loudness_control.c:impd_drc_init_loudness_control", "decoder/impd_drc_loudness_control.c:impd_drc_check_loudness_payload", "decoder/impd_drc_loudness_control.c:impd_drc_check_loudness_info", "decoder/impd_drc_loudness_control.c:impd_drc_chk_loudness_info_present"]}
{"id": "C131", "title": "The output has the target loudness", "statement": "With loudness normalisation the loudness reported for the output is the target and the gain of the selected set is the target minus the preferred loudness measurement for that set; if there is no loudness information the gain is 0.", "quantifier": "for every request, configuration and loudness information", "why_tests_cant": "Depends on the loudness information of every candidate set, not only the selected one.", "anchors": ["decoder/impd_drc_selection_process.c:impd_drc_uni_sel_proc_process", "decoder/impd_drc_selection_process_drcset_selection.c:impd_drc_set_pre_selection", "decoder/impd_drc_loudness_control.c:impd_drc_init_loudness_control"]}
{"id": "C132", "title": "The gain applied is the gain of the selected set", "statement": "The loudness normalisation gain that the decoder applies to its output is the one of the selected DRC set.", "quantifier": "for every request, configuration and loudness information", "why_tests_cant": "Shows only if sets differ in loudness and the selected one is not the last candidate.", "anchors": ["decoder/impd_drc_selection_process_drcset_selection.c:impd_drc_set_pre_selection", "decoder/impd_drc_selection_process.c:impd_drc_uni_sel_proc_process", "decoder/ia_core_coder_decode_main.c:ia_core_coder_dec_main"]}
{"id": "C133", "title": "DRC set selection stays inside its tables", "statement": "Loudness control and DRC set selection read and write only inside their arrays.", "quantifier": "for every request, accepted configuration and accepted loudness information", "why_tests_cant": "Needs many entries for the same downmix and set; a write behind a local array need not be seen.", "anchors": ["decoder/impd_drc_loudness_control.c:impd_drc_check_loudness_info", "decoder/impd_drc_loudness_control.c:impd_drc_signal_peak_level_info", "decoder/impd_drc_selection_process_drcset_selection.c:impd_drc_set_pre_selection", "decoder/impd_drc_selection_process_drcset_selection.c:impd_drc_match_effect_types", "decoder/impd_drc_selection_process_drcset_selection.c:impd_drc_set_final_selection", "decoder/impd_drc_selection_process.c:impd_drc_uni_sel_proc_process"]}
{"id": "C134", "title": "DRC set selection is a function of its inputs", "statement": "The active DRC sets and the gains depend only on the request, the configuration and the loudness information, not on what memory held before.", "quantifier": "for every request, configuration and loudness information and every content of the uninitialised arrays", "why_tests_cant": "A run sees one content of the stack.", "anchors": ["decoder/impd_drc_loudness_control.c:impd_drc_signal_peak_level_info", "decoder/impd_drc_selection_process_drcset_selection.c:impd_drc_set_pre_selection"]}
{"id": "C135", "title": "A DRC set within the peak limit is selected if there is one", "statement": "If a candidate set keeps the output peak within the limit, the selected set does; of several, sets for presets, then groups, the requested downmix, fewer effects, meeting the target loudness, the higher peak and the higher identifier decide in that order.", "quantifier": "for every request, configuration and loudness information", "why_tests_cant": "The rules interact for sets that differ in several respects at once.", "anchors": ["decoder/impd_drc_selection_process_drcset_selection.c:impd_drc_set_pre_selection", "decoder/impd_drc_selection_process_drcset_selection.c:impd_drc_set_final_selection"]}
{"id": "C136", "title": "The first effect asked for that any set has is honoured", "statement": "Of the DRC effects asked for, in their order, the first that any candidate set has, itself or through the set it depends on, is one that all remaining candidates have; if no candidate has any all candidates remain.", "quantifier": "for every list of effects, configuration and list of candidates", "why_tests_cant": "Depends on the order of requests and on dependencies between sets.", "anchors": ["decoder/impd_drc_selection_process_drcset_selection.c:impd_drc_match_effect_types", "decoder/impd_drc_selection_process_drcset_selection.c:impd_drc_match_effect_type_attempt", "decoder/impd_drc_selection_process_drcset_selection.c:impd_drc_select_drcs_without_compr_effects", "decoder/impd_drc_selection_process_drcset_selection.c:impd_drc_get_dependent_drc_instructions"]}
{"id": "C137", "title": "At most three sets are active, each once", "statement": "The selection makes at most three DRC sets active; each is a set of the configuration with a positive identifier and for the base layout or for the first downmix of its instruction, and none is active twice.", "quantifier": "for every request, configuration and loudness information", "why_tests_cant": "A set that is active twice is only heard as a gain applied twice.", "anchors": ["decoder/impd_drc_selection_process.c:impd_drc_uni_sel_proc_process", "decoder/impd_drc_selection_process.c:impd_get_fading_drc_set", "decoder/impd_drc_selection_process.c:impd_get_ducking_drc_set", "decoder/impd_drc_selection_process.c:impd_get_dependent_drc_set", "decoder/impd_drc_selection_process.c:impd_get_selected_drc_set"]}
{"id": "C138", "title": "Ducking comes before fading", "statement": "If the configuration has a ducking set for the request then one is active; otherwise, if it has a fading set, one is active.", "quantifier": "for every request, configuration and loudness information", "why_tests_cant": "Needs streams with both.", "anchors": ["decoder/impd_drc_selection_process.c:impd_drc_uni_sel_proc_process", "decoder/impd_drc_selection_process.c:impd_get_fading_drc_set", "decoder/impd_drc_selection_process.c:impd_get_ducking_drc_set"]}
{"id": "C139", "title": "With DRC off only fading and ducking sets are active", "statement": "If dynamic range control is switched off, all active sets are fading or ducking sets.", "quantifier": "for every request, configuration and loudness information", "why_tests_cant": "Needs a stream with an unusual set identifier.", "anchors": ["decoder/impd_drc_selection_process_drcset_selection.c:impd_drc_set_pre_selection", "decoder/impd_drc_selection_process.c:impd_drc_uni_sel_proc_process", "decoder/impd_drc_selection_process.c:impd_get_selected_drc_set"]}
{"id": "C140", "title": "Peak levels are those of the signal played", "statement": "The output peak level does not depend on loudness information for groups and presets that are not requested.", "quantifier": "for every request, configuration and loudness information", "why_tests_cant": "Needs loudness information for several groups.", "anchors": ["decoder/impd_drc_loudness_control.c:impd_drc_signal_peak_level_info", "decoder/impd_drc_loudness_control.c:impd_drc_check_if_match"]}
{"id": "C141", "title": "Active sets are for the requested groups and presets", "statement": "Every active DRC set is for the whole programme, for a requested group or for a requested preset, or is one that such a set depends on.", "quantifier": "for every request, configuration and loudness information", "why_tests_cant": "Needs sets for several presets in a particular order.", "anchors": ["decoder/impd_drc_selection_process_drcset_selection.c:impd_drc_set_pre_selection", "decoder/impd_drc_selection_process.c:impd_get_fading_drc_set", "decoder/impd_drc_selection_process.c:impd_get_ducking_drc_set"]}
{"id": "C142", "title": "The selected set suits the request and the decoder", "statement": "With DRC on, the selected set is for the requested downmix, for any or for the base layout, compresses, may be used on its own or with the set it depends on, and neither of the two has gains for more than four bands.", "quantifier": "for every request, configuration and loudness information", "why_tests_cant": "Sets that must not be selected are only selected by mistake when several sets compete.", "anchors": ["decoder/impd_drc_selection_process_drcset_selection.c:impd_drc_set_pre_selection", "decoder/impd_drc_selection_process.c:impd_drc_uni_sel_proc_process"]}
{"id": "C143", "title": "Sets that active sets depend on are active", "statement": "If an active set depends on another then that one is active too and depends on no other.", "quantifier": "for every request, configuration and loudness information", "why_tests_cant": "Needs chains of dependent sets and an output above the peak limit.", "anchors": ["decoder/impd_drc_selection_process_drcset_selection.c:impd_drc_get_dependent_drc_instructions", "decoder/impd_drc_selection_process.c:impd_get_dependent_drc_set", "decoder/impd_drc_selection_process.c:impd_drc_uni_sel_proc_process"]}
{"id": "C144", "title": "If a set fits the request the selection succeeds", "statement": "If the configuration has a DRC set for the request that fits the downmix and the decoder, then the selection ends without error.", "quantifier": "for every request, accepted configuration and accepted loudness information", "why_tests_cant": "Error returns of the selection depend on the peak levels, groups and order of all sets.", "anchors": ["decoder/impd_drc_selection_process_drcset_selection.c:impd_drc_set_pre_selection", "decoder/impd_drc_selection_process_drcset_selection.c:impd_drc_match_effect_types", "decoder/impd_drc_selection_process_drcset_selection.c:impd_drc_set_final_selection", "decoder/impd_drc_selection_process.c:impd_drc_uni_sel_proc_process"]}
{"id": "C145", "title": "Band weights of a subband add up to one", "statement": "In the subband domain the weights of the bands of a gain set are not negative and add up to 1 in every one of the 256 subbands, so that equal gains in all bands are a broadband gain.", "quantifier": "for every accepted gain set of several bands", "why_tests_cant": "Only gain sets with unusual borders show it, and the sum is not visible in the output of one band.", "anchors": ["decoder/impd_drc_multiband.c:impd_drc_init_overlap_weight", "decoder/impd_drc_multiband.c:impd_drc_generate_slope"]}
{"id": "C146", "title": "In the time domain channels are multiplied with the gains of their group", "statement": "Active sets are applied one after the other, from last to first. Each splits a channel of a group into the bands of the group, multiplies each band with its gain for every sample, and adds the bands; a channel in no group is left alone. Nothing is read or written outside its buffer.", "quantifier": "for all samples, gains, filters and sets that fit the decoder", "why_tests_cant": "Rows of gains and signals are found by running sums over groups and channels; wrong sums only show in some combinations of groups and bands.", "anchors": ["decoder/impd_drc_process.c:impd_drc_td_process", "decoder/impd_drc_process.c:impd_drc_filter_banks_process", "decoder/impd_drc_process.c:impd_drc_apply_gains_and_add"]}
{"id": "C147", "title": "In the subband domain subbands are multiplied with the weighted gains of their group", "statement": "Active sets are applied one after the other, from last to first. Each multiplies every subband of a slot of a channel with the gains of its group at the middle of the slot, summed over bands with the weights of the subband. Nothing is read or written outside its buffer.", "quantifier": "for all spectra, gains, weights and sets that fit the decoder", "why_tests_cant": "Wrong gain indices only show in some combinations of groups and bands.", "anchors": ["decoder/impd_drc_process.c:impd_drc_fd_process"]}
{"id": "C148", "title": "All channel groups have the same phase", "statement": "For a set of several bands every channel goes through the same crossover frequencies, by band filters or by all-pass filters, so that channels of different groups stay aligned; and none that can be left out in all groups is kept.", "quantifier": "for every set and every history of configurations", "why_tests_cant": "Needs a second configuration and a phase measurement.", "anchors": ["decoder/impd_drc_filter_bank.c:impd_drc_init_all_filter_banks"]}
{"id": "C149", "title": "Filters are set up inside their tables", "statement": "Setting up the filters of a set of an accepted configuration writes no more banks and all-pass filters than there is room for.", "quantifier": "for every accepted configuration", "why_tests_cant": "Needs many groups with different crossover frequencies.", "anchors": ["decoder/impd_drc_filter_bank.c:impd_drc_init_all_filter_banks", "decoder/impd_drc_init.c:impd_drc_init_selected_drc_set"]}
{"id": "C150", "title": "Every active set is handed to one gain decoder", "statement": "Of the active sets those for the base layout are handed to the first gain decoder and all others to the second one.", "quantifier": "for all active sets, configurations and histories of configurations", "why_tests_cant": "Needs sets for any downmix beside sets for certain downmixes.", "anchors": ["decoder/ia_core_coder_decode_main.c:impeghd_uni_drc_dec_init", "decoder/ia_core_coder_decode_main.c:impd_match_downmix"]}
{"id": "C151", "title": "A set that is set up is applied as it should be", "statement": "When a gain decoder has been set up for sets of an accepted configuration then, whatever the gains, processing reads and writes inside its buffers and multiplies channels with the gains of their groups, for each set that was asked for, in the time domain and in the subband domain.", "quantifier": "for every accepted configuration, all samples, gains and filters", "why_tests_cant": "Set-up and processing count bands and signals separately; they must agree for all configurations.", "anchors": ["decoder/impd_drc_init.c:impd_drc_init_decode_post_config", "decoder/impd_drc_init.c:impd_drc_init_selected_drc_set", "decoder/impd_drc_process.c:impd_drc_td_process", "decoder/impd_drc_process.c:impd_drc_fd_process"]}
{"id": "C152", "title": "Memory of gain decoders is in the persistent buffer", "statement": "The gain buffers and rows of samples that a gain decoder is handed are inside the persistent buffer.", "quantifier": "for every accepted configuration and all active sets", "why_tests_cant": "Needs three active sets of many groups.", "anchors": ["decoder/impd_drc_init.c:impd_drc_init_decode_post_config"]}
{"id": "C153", "title": "Gain decoders are set up inside their tables", "statement": "Setting up gain decoders for active sets of an accepted configuration reads and writes inside all arrays, for every output layout.", "quantifier": "for every accepted configuration, all active sets and output layouts", "why_tests_cant": "Needs the layout with the most loudspeakers and a set for any downmix.", "anchors": ["decoder/impd_drc_init.c:impd_drc_init_decode_post_config", "decoder/impd_drc_init.c:impd_drc_init_selected_drc_set", "decoder/ia_core_coder_decode_main.c:impeghd_uni_drc_dec_init"]}
{"id": "C154", "title": "Codes of lattice points are decoded to points of the lattice", "statement": "Every code of a codebook of the lattice RE8, an index and eight Voronoi indices that fit their fields, is decoded without undefined behaviour to eight integers that are all even or all odd and whose sum is a multiple of 4.", "quantifier": "for every codebook number, index and Voronoi indices", "why_tests_cant": "The codebooks of 16 bits alone have 65536 indices, and each Voronoi index doubles in range with each second codebook.", "anchors": ["decoder/ia_core_coder_avq_dec.c:ia_core_coder_rotated_gosset_mtx_dec", "decoder/ia_core_coder_avq_dec.c:ia_core_coder_gosset_decode_base_index", "decoder/ia_core_coder_avq_dec.c:ia_core_coder_decode_voronoi_idx"]}
{"id": "C155", "title": "No two codes of a codebook stand for the same point", "statement": "Two codes of the same codebook that differ in the index or a Voronoi index are decoded to different points, so that no code is wasted and an encoder can code every point of a codebook.", "quantifier": "for every codebook number and all pairs of codes", "why_tests_cant": "A collision needs two certain codes out of more than 2 to the power of 200.", "anchors": ["decoder/ia_core_coder_avq_dec.c:ia_core_coder_rotated_gosset_mtx_dec", "decoder/ia_core_coder_avq_dec.c:ia_core_coder_gosset_rank_of_permutation", "decoder/ia_core_coder_avq_dec.c:ia_core_coder_search_voronoi"]}
{"id": "C156", "title": "Voronoi indices stand for the point nearest to the middle", "statement": "The point of a larger codebook is a multiple of a point of a base codebook plus a remainder; of all points that the Voronoi indices could stand for, that is up to multiples of points of the lattice, the remainder is one that is nearest to (2, 0, ..., 0).", "quantifier": "for every codebook number, index and Voronoi indices, compared with all points of the lattice", "why_tests_cant": "The search only looks at two points; that no other one is nearer is a statement about all of them.", "anchors": ["decoder/ia_core_coder_avq_dec.c:ia_core_coder_search_voronoi", "decoder/ia_core_coder_avq_dec.c:ia_core_coder_nearest_2d_neighbor", "decoder/ia_core_coder_avq_dec.c:ia_core_coder_decode_voronoi_idx"]}
{"id": "C157", "title": "Codebook numbers of linear prediction filters are read as they are coded", "statement": "The three codes for pairs of codebook numbers (unary, and two bits with two kinds of extension) are read back as coded, whatever follows them; nothing else is accepted, and no code of a pair starts with that of another.", "quantifier": "for every pair of codebook numbers, every kind of code and every bitstream", "why_tests_cant": "Codebook numbers have no limit, and the mapping of the extension treats 0, 5 and 6 differently from others.", "anchors": ["decoder/ia_core_coder_acelp_bitparse.c:ia_core_coder_qn_data"]}
{"id": "C158", "title": "The indices of filters stay inside their array", "statement": "Whatever the fields of the filters of a frame are, the parser stores at most 109 of the 110 entries of lpc_first_approx_idx, and reading the filters has no undefined behaviour.", "quantifier": "for all values of all fields and all divisions of a frame", "why_tests_cant": "The number of entries depends on the modes and codebook numbers of five filters; the largest number needs a certain combination.", "anchors": ["decoder/ia_core_coder_acelp_bitparse.c:ia_core_coder_lpc_data", "decoder/ia_core_coder_acelp_bitparse.c:ia_core_coder_code_book_indices"]}
{"id": "C159", "title": "Filters of the linear prediction domain are decoded as coded", "statement": "Every accepted sequence of filters is the code of filters with a mode, a row of the tables and two points of the lattice each; the line spectral frequencies computed for each filter are the least separated ones not below what the tables or the reference filters and the vector ask for, or the mean of two filters, and other rows are left alone. Conversely the code of any filters is accepted, whatever follows it.", "quantifier": "for all filters, all divisions of a frame, all bitstreams and all tables", "why_tests_cant": "The parser stores entries in an array which the dequantiser walks through on its own; for each combination of modes and codebooks they must take the same steps.", "anchors": ["decoder/ia_core_coder_acelp_bitparse.c:ia_core_coder_lpc_data", "decoder/ia_core_coder_lpc_dec.c:ia_core_coder_alg_vec_dequant", "decoder/ia_core_coder_lpc_dec.c:ia_core_coder_avq_first_approx_abs", "decoder/ia_core_coder_lpc_dec.c:ia_core_coder_avq_first_approx_rel"]}
{"id": "C160", "title": "Line spectral frequencies stay at least 50 Hz apart and below half the sampling rate", "statement": "After any sequence of frames and resets the frequencies at the start and the end of every part of an accepted frame are ascending, the first is at least 50, neighbours are at least 50 apart, and all are below 6400.", "quantifier": "for all sequences of frames, all tables and all square root functions", "why_tests_cant": "Frequencies of one frame are the reference for those of the next, so a violation can need a history of frames.", "anchors": ["decoder/ia_core_coder_lpc_dec.c:ia_core_coder_avq_first_approx_rel", "decoder/ia_core_coder_lpc_dec.c:ia_core_coder_alg_vec_dequant", "decoder/ia_core_coder_lpc.c:ia_core_coder_lpd_dec"]}
{"id": "C161", "title": "Every part of a frame gets the filters at its borders", "statement": "The filters that are sent are that at the end of the frame, that at its start if the frame is the first of its kind, and those where a part ends and another starts; every part is decoded with the frequencies of the filters at its start and end, all of which are of this frame except that at the start of a frame that is not the first, which is the last of the frame before.", "quantifier": "for every division of a frame, all filters and all states of the scratch memory", "why_tests_cant": "Rows of the scratch memory that are not written keep what earlier frames left, which a test on one division would not notice.", "anchors": ["decoder/ia_core_coder_lpc.c:ia_core_coder_lpd_dec", "decoder/ia_core_coder_acelp_bitparse.c:ia_core_coder_lpc_data", "decoder/ia_core_coder_lpc_dec.c:ia_core_coder_alg_vec_dequant"]}
{"id": "C162", "title": "The division of a frame is what its number says", "statement": "The 26 divisions of a frame into parts, and the 5 of a full band frame, have different numbers, exactly these numbers are accepted, each quarter gets the mode of the part that contains it, and the parts follow one another and fill the frame.", "quantifier": "for every number and all modes left from the frame before", "why_tests_cant": "The five branches treat bits of the number in different ways, and entries of the array of modes can be left over.", "anchors": ["decoder/ia_core_coder_acelp_bitparse.c:ia_core_coder_lpd_channel_stream"]}
{"id": "C163", "title": "Numbers for the aliasing cancellation are lattice points and stay inside their arrays", "statement": "What is read for the cancellation of aliasing is exactly a sequence of codes of lattice points; in an accepted frame those of a part fill the quarter of the array of 512 that belongs to its start, those of a frame before fit the array of 129 behind the gain, and reading has no undefined behaviour.", "quantifier": "for all bitstreams, divisions, window lengths and codebook numbers", "why_tests_cant": "Codebook numbers are coded in unary without limit, and the widths of fields grow with them.", "anchors": ["decoder/ia_core_coder_acelp_bitparse.c:ia_core_coder_fac_decoding", "decoder/ia_core_coder_acelp_bitparse.c:ia_core_coder_lpd_channel_stream"]}
{"id": "C164", "title": "Frames of the linear prediction domain are accepted exactly if they are codes of frames", "statement": "A frame is accepted exactly if it is the code of a frame description: window fields, division, excitations, transform coded heads, cancellation numbers where the kind of part changes, filters, and numbers for the frame before; that description is what is delivered, the bits after it are left, and no frame starts with another.", "quantifier": "for all bitstreams, all configurations, all histories, and all codes of bandwidth extension and spectral data that are read back", "why_tests_cant": "The order and presence of some twenty kinds of fields depend on the division, the history and the configuration; a misread field shows only in later ones.", "anchors": ["decoder/ia_core_coder_acelp_bitparse.c:ia_core_coder_lpd_channel_stream", "decoder/ia_core_coder_acelp_bitparse.c:ia_core_coder_acelp_decoding", "decoder/ia_core_coder_acelp_bitparse.c:ia_core_coder_tcx_coding"]}
{"id": "C165", "title": "The size of an excitation depends only on its mode", "statement": "Without bandwidth extension a part coded with pulses has 144, 176, 208, 240, 272, 320, 112 or 128 bits for modes 0 to 7.", "quantifier": "for all values of all fields", "why_tests_cant": "The widths come from a table and a special case for mode 5, in which fields are split.", "anchors": ["decoder/ia_core_coder_acelp_bitparse.c:ia_core_coder_acelp_decoding"]}
{"id": "C166", "title": "Lines of transform coded parts are stored one after another inside their array", "statement": "In an accepted frame the lines of a transform coded part are stored behind those of the transform coded parts before it, and all are inside the array of 1024 lines.", "quantifier": "for every division of a frame, full band or not", "why_tests_cant": "The pointer advances by counts that depend on the mode and the kind of frame.", "anchors": ["decoder/ia_core_coder_acelp_bitparse.c:ia_core_coder_lpd_channel_stream", "decoder/ia_core_coder_acelp_bitparse.c:ia_core_coder_tcx_coding"]}
{"id": "C167", "title": "Pulses stay inside the vector", "statement": "For each of the eight modes and all values of the fields of a coded subframe, decoding the pulses writes only inside the vector of 64 numbers.", "quantifier": "for all modes and all values of the fields", "why_tests_cant": "There are up to 2^64 values of the fields, and positions are put together from halves, quarters and offsets that depend on them.", "anchors": ["decoder/ia_core_coder_acelp_decode.c:ia_core_coder_acelp_decode_pulses_per_track", "decoder/ia_core_coder_acelp_decode.c:ia_core_coder_acelp_decode_4sp_per_track"]}
{"id": "C168", "title": "The vectors that can be coded are those with the right number of pulses on each track", "statement": "In each mode the decoded vector has exactly the number of pulses that the mode has on each of the four tracks, and every such vector has a code.", "quantifier": "for all vectors, all modes and all values of the fields", "why_tests_cant": "That every vector has a code needs an encoder, which the decoder does not come with; the number of vectors is astronomical.", "anchors": ["decoder/ia_core_coder_acelp_decode.c:ia_core_coder_acelp_decode_pulses_per_track", "decoder/ia_core_coder_acelp_decode.c:ia_core_coder_acelp_decode_2sp_per_track", "decoder/ia_core_coder_acelp_decode.c:ia_core_coder_acelp_decode_3sp_per_track", "decoder/ia_core_coder_acelp_decode.c:ia_core_coder_acelp_decode_4sp_per_track"]}
{"id": "C169", "title": "No two codes stand for the same pulses", "statement": "In each mode different values of the fields are decoded to different vectors.", "quantifier": "for all pairs of values of the fields in all modes", "why_tests_cant": "Pairs of codes cannot be enumerated, and ambiguity never shows in the output.", "anchors": ["decoder/ia_core_coder_acelp_decode.c:ia_core_coder_acelp_decode_pulses_per_track", "decoder/ia_core_coder_acelp_decode.c:ia_core_coder_acelp_decode_3sp_per_track", "decoder/ia_core_coder_acelp_decode.c:ia_core_coder_acelp_decode_4sp_per_track"]}
{"id": "C170", "title": "Pitch lags stay within their limits and the excitation buffer is long enough for them", "statement": "At every accepted sampling rate and for all fields the lags of the four subframes are between the smallest and the largest lag, their fractions are 0 to 3 quarters, and the adaptive part of the excitation reads and writes only inside the excitation buffer.", "quantifier": "for all sampling rates, all fields, all parts of a frame and all contents of the buffer", "why_tests_cant": "The lag follows from the sampling rate and two fields by pieces with different steps; only certain rates and fields leave the buffer.", "anchors": ["decoder/ia_core_coder_acelp_decode.c:ia_core_coder_acelp_alias_cnx", "decoder/ia_core_coder_acelp_decode.c:ia_core_coder_cb_exc_calc", "decoder/ia_core_coder_ext_ch_ele.c:ia_core_coder_read_lpd_fd_data"]}
{"id": "C171", "title": "The adaptive part of the excitation is the past excitation, interpolated", "statement": "Each entry of the adaptive part is the excitation lag + frac / 4 earlier, interpolated with the symmetric response of the table, where entries computed before serve as past; nothing but the 65 entries changes, and the result depends only on the past.", "quantifier": "for all sampling rates, lags, fractions and contents of the buffer, over exact numbers", "why_tests_cant": "For lags shorter than a subframe the result feeds back into itself, so each entry depends on others in a way that a table of cases does not cover.", "anchors": ["decoder/ia_core_coder_acelp_decode.c:ia_core_coder_cb_exc_calc", "decoder/ia_core_coder_acelp_decode.c:ia_core_coder_acelp_alias_cnx"]}
{"id": "C172", "title": "Smoothing changes gains by a factor of at most 1.19", "statement": "The threshold is the last one limited to a factor of 1.19 around the decoded gain; the gain that is applied is within a factor of 1.19 of the decoded gain, whatever came before; it is the decoded gain if the filter is not stable at all or if the threshold equals it. The measure of voicing is between -1 and 1 and that of stability between 0 and 1.", "quantifier": "for all excitations, gains, filters and histories, over exact numbers", "why_tests_cant": "The threshold depends on all subframes before.", "anchors": ["decoder/ia_core_coder_acelp_decode.c:ia_core_coder_acelp_alias_cnx", "decoder/ia_core_coder_lpc.c:ia_core_coder_lpd_dec"]}
{"id": "C173", "title": "Filters and their inverses undo each other", "statement": "De-emphasis undoes pre-emphasis and conversely, with the same history; de-emphasis in two pieces is de-emphasis as a whole; synthesis from a residual gives the signal, and what is synthesised has the excitation as its residual.", "quantifier": "for all signals, coefficients, histories and lengths, over exact numbers", "why_tests_cant": "The filters work in place and in different directions; whether an entry is used before or after it is overwritten decides the result for all later ones.", "anchors": ["decoder/ia_core_coder_acelp_tools.c:ia_core_coder_preemphsis_tool", "decoder/ia_core_coder_acelp_tools.c:ia_core_coder_deemphsis_tool", "decoder/ia_core_coder_acelp_tools.c:ia_core_coder_residual_tool", "decoder/ia_core_coder_acelp_tools.c:ia_core_coder_synthesis_tool1"]}
{"id": "C174", "title": "The table decoder of scale factors decodes every codeword", "statement": "For each of the 121 codewords and every word of 32 bits that begins with it, the decoder with offsets by leading ones delivers the value and the length of that codeword, whatever bits follow.", "quantifier": "for all codewords and all continuations", "why_tests_cant": "There are 2^32 words; a wrong offset in the table shows for one codeword only, and the longest codewords stand for differences that hardly occur.", "anchors": ["decoder/ia_core_coder_env_extr.c:ia_core_coder_huffman_decode", "decoder/ia_core_coder_rom.c:ia_core_coder_mpeghd_huffmann_tables"]}
{"id": "C175", "title": "Scale factors are decoded as coded and the bit buffer is left behind them", "statement": "For one long window or any grouping of eight short ones, scale factors coded as differences are decoded to each window of their group, with zeros in the bands that are not coded, and the bit buffer is left exactly behind the last codeword; the error is reported in the same cases as by a reader bit by bit.", "quantifier": "for all scale factors, groupings, gains, numbers of bands, positions in the input and contents of the buffer", "why_tests_cant": "The reader keeps a word of 32 bits and moves it along the input by bytes in its own way, with other rules in the last four bytes of the input.", "anchors": ["decoder/ia_core_coder_spectrum_dec.c:ia_core_coder_section_data", "decoder/ia_core_coder_spectrum_dec.c:ia_core_coder_scale_factor_data", "decoder/ia_core_coder_spectrum_dec.c:ia_core_coder_mpeghd_showbits_32", "decoder/ia_core_coder_bitbuffer.c:ia_core_coder_mpeghd_read_byte_corr1"]}
{"id": "C176", "title": "Truncated scale factors are reported", "statement": "If the input ends before the last codeword of the scale factors, decoding ends with an error.", "quantifier": "for all inputs, groupings and numbers of bands", "why_tests_cant": "It takes an input that ends inside the scale factors with few bits left; what happens then depends on how the compiler shifts.", "anchors": ["decoder/ia_core_coder_spectrum_dec.c:ia_core_coder_section_data", "decoder/ia_core_coder_spectrum_dec.c:ia_core_coder_fd_channel_stream", "decoder/ia_core_coder_bitbuffer.c:ia_core_coder_mpeghd_read_byte_corr1"]}
{"id": "C177", "title": "Scale factors are between 0 and 255", "statement": "Every scale factor that is stored is between 0 and 255; inputs that lead outside are rejected.", "quantifier": "for all inputs, groupings and numbers of bands", "why_tests_cant": "The sum of differences leaves the range only for particular sequences of codewords.", "anchors": ["decoder/ia_core_coder_spectrum_dec.c:ia_core_coder_section_data"]}
{"id": "C178", "title": "Windows are accepted exactly as coded and offsets of bands are right at all sampling rates", "statement": "A window sequence, shape, number of bands and grouping is accepted if and only if it is coded by the bits that are read; for every sampling rate and grouping, the table of offsets has the end of each band of each group, at most 120 entries, and ends with 1024.", "quantifier": "for all inputs, sampling rates, window sequences before and groupings of eight windows", "why_tests_cant": "There are 128 groupings, 13 band tables and 5 window sequences before; an error in a rarely used table or grouping shifts all bands that follow.", "anchors": ["decoder/ia_core_coder_ext_ch_ele.c:ia_core_coder_ics_info", "decoder/ia_core_coder_spectrum_dec.c:ia_core_coder_win_seq_select", "decoder/ia_core_coder_spectrum_dec.c:ia_core_coder_calc_grp_offset"]}
{"id": "C179", "title": "A window that does not fit the window before it is rejected", "statement": "The decoder has an error code for wrong window sequences; if a frame is accepted, the left half of its window is short exactly if the right half of the window before it is short.", "quantifier": "for all inputs, sampling rates and window sequences before", "why_tests_cant": "Encoders only make fitting sequences; others come from lost or damaged frames.", "anchors": ["decoder/ia_core_coder_ext_ch_ele.c:ia_core_coder_ics_info", "decoder/ia_core_coder_spectrum_dec.c:ia_core_coder_win_seq_select"]}
{"id": "C180", "title": "Noise shaping filters are accepted exactly as coded, from band 0 on", "statement": "The filters of each window are accepted if and only if they are coded by the bits that are read, including filters over all bands.", "quantifier": "for all inputs, sampling rates, long and short windows, and filters", "why_tests_cant": "Filters down to band 0 are a single value of a 6 bit field that depends on the sampling rate.", "anchors": ["decoder/ia_core_coder_spectrum_dec.c:ia_core_coder_read_tns_u"]}
{"id": "C181", "title": "The header of a pair of channels is accepted exactly as coded", "statement": "Common windows, stereo data, postfilter data and noise shaping of a pair are accepted if and only if they are coded by the bits that are read, where common noise shaping is coded for the windows of the pair.", "quantifier": "for all inputs, configurations, sampling rates and states before", "why_tests_cant": "It takes a second pair with other windows than the first channel of the stream, and common noise shaping in it.", "anchors": ["decoder/ia_core_coder_ext_ch_ele.c:ia_core_coder_data", "decoder/ia_core_coder_ext_ch_ele.c:ia_core_coder_read_ms_mask", "decoder/ia_core_coder_spectrum_dec.c:ia_core_coder_read_tns_u"]}
{"id": "C182", "title": "Stereo flags are found where they are looked up", "statement": "The flag of a band of a group is at the number of the group times the number of bands plus the number of the band; bands that are not coded have none; the table is large enough at all sampling rates, whatever number of bands is coded.", "quantifier": "for all inputs, sampling rates, groupings and numbers of bands", "why_tests_cant": "The table is filled with one stride and read with another function; it matters for groupings with several groups only.", "anchors": ["decoder/ia_core_coder_ext_ch_ele.c:ia_core_coder_read_ms_mask", "decoder/ia_core_coder_ext_ch_ele.c:impeghd_ms_stereo"]}
{"id": "C183", "title": "Prediction coefficients are accepted exactly as coded", "statement": "Flags and coefficients of stereo prediction are accepted if and only if they are coded by the bits that are read, as differences over bands or over time, with the coefficients that are kept for the next frame.", "quantifier": "for all inputs, numbers of groups and bands and coefficients before", "why_tests_cant": "Coefficients depend on those of all bands, groups and frames before.", "anchors": ["decoder/ia_core_coder_ext_ch_ele.c:ia_core_coder_cplx_pred_data"]}
{"id": "C184", "title": "Prediction from the imaginary part is refused exactly where it is forbidden", "statement": "A pair whose prediction uses the imaginary part is refused if and only if independent noise filling is used in its element or stereo filling in its frame.", "quantifier": "for all inputs, configurations and states before", "why_tests_cant": "It takes configurations with several elements that differ in gap filling.", "anchors": ["decoder/ia_core_coder_ext_ch_ele.c:ia_core_coder_data"]}
{"id": "C185", "title": "Numbers of bands of both channels of a pair are limited", "statement": "If a pair is accepted, neither channel and not the stereo data has more bands than its windows.", "quantifier": "for all inputs, configurations and sampling rates", "why_tests_cant": "The right channel has its own number of bands only in some streams, and too large numbers only in damaged ones.", "anchors": ["decoder/ia_core_coder_ext_ch_ele.c:ia_core_coder_data"]}
{"id": "C186", "title": "Middle and side are turned into left and right in exactly the flagged bands", "statement": "A pair of bins becomes sum and difference if and only if its band is below the number of stereo bands and flagged in its group; nothing else changes; middle and side so give back left and right; more stereo bands than there are give an error.", "quantifier": "for all spectra, sampling rates, groupings and flags", "why_tests_cant": "Bins are addressed over groups, windows and bands; an error in one loop shows for some groupings only.", "anchors": ["decoder/ia_core_coder_ext_ch_ele.c:impeghd_ms_stereo"]}
{"id": "C187", "title": "Stereo prediction is inverted exactly", "statement": "For spectra coded by prediction of side from middle or of middle from side, with or without imaginary part, upmixing gives back the spectra in all bins and changes nothing beyond.", "quantifier": "for all spectra, coefficients, flags, sampling rates, groupings, filters and windows before", "why_tests_cant": "The imaginary part of a bin depends on neighbouring bins in other bands and other windows; tests compare with a reference decoder for a few streams.", "anchors": ["decoder/ia_core_coder_ext_ch_ele.c:ia_core_coder_cplx_pred_upmixing", "decoder/ia_core_coder_ext_ch_ele.c:ia_core_coder_cplx_prev_mdct_dmx"]}
{"id": "C188", "title": "The imaginary part is the mirrored filter over the window and the one before", "statement": "For all windows and bins the estimated imaginary part is the sum of seven products with the bins around it, mirrored at both borders, plus the same for the window before with alternating sign; the filters for the window are antisymmetric and those for the window before symmetric.", "quantifier": "for all spectra, filters, even window lengths, window sequences and shapes", "why_tests_cant": "The code has the first and last three bins written out by hand.", "anchors": ["decoder/ia_core_coder_ext_ch_ele.c:ia_core_coder_filter_and_add", "decoder/ia_core_coder_ext_ch_ele.c:ia_core_coder_estimate_dmx_im"]}
{"id": "C189", "title": "Prediction leaves bands above the stereo bands unchanged", "statement": "Upmixing does not change bins of bands at or above the limit it is called with.", "quantifier": "for all spectra, coefficients and flags", "why_tests_cant": "Flags above the limit come from gap filling with its own prediction only.", "anchors": ["decoder/ia_core_coder_ext_ch_ele.c:ia_core_coder_cplx_pred_upmixing"]}
{"id": "C190", "title": "Prediction of harmonics adds the estimate of the specification to each line", "statement": "In a frame with prediction whose coded bands end beyond the prediction bandwidth, each line below the bandwidth gets 512 times its estimate from the two frames before, and lines above are unchanged; without prediction no line is changed; the memory gets the limited values of this frame.", "quantifier": "for all quantised values, scale factors, sampling rates, spacings and memories within limits", "why_tests_cant": "The place of a line relative to the harmonics depends on spacing and on all lines before; values depend on two frames before.", "anchors": ["decoder/ia_core_coder_arith_dec.c:ia_core_coder_fd_chn_fdp_decode"]}
{"id": "C191", "title": "Prediction over any sequence of frames keeps its memory within limits", "statement": "Whatever frames follow each other, prediction neither reads nor writes outside of its tables and memory, no intermediate result overflows, and the memory stays within 31775.", "quantifier": "for all sequences of frames, quantised values, scale factors and spacings", "why_tests_cant": "The memory is fed back from frame to frame; overflow needs extreme values over several frames.", "anchors": ["decoder/ia_core_coder_arith_dec.c:ia_core_coder_fd_chn_fdp_decode"]}
{"id": "C192", "title": "Coded prediction is used", "statement": "In every frame with long window that codes prediction, all coded lines below the prediction bandwidth get their estimate.", "quantifier": "for all numbers of bands, sampling rates and spacings", "why_tests_cant": "It takes frames of few bands with prediction.", "anchors": ["decoder/ia_core_coder_arith_dec.c:ia_core_coder_fd_chn_fdp_decode", "decoder/ia_core_coder_arith_dec.c:ia_core_coder_ac_spectral_data"]}
{"id": "C193", "title": "Both ways of finding the spacing of harmonics agree", "statement": "The table of spacings and the computation used for parts of linear prediction give the same spacing for each index, which is 894 * 256 divided by 298 less the index, rounded.", "quantifier": "for all 256 indices", "why_tests_cant": "A wrong entry of the table is used by streams with that spacing only.", "anchors": ["decoder/ia_core_coder_arith_dec.c:ia_core_coder_fd_chn_fdp_decode", "decoder/ia_core_coder_tcx_fwd_alcnx.c:ia_core_coder_tcx_fdp_decode"]}
{"id": "C194", "title": "Prediction in parts of linear prediction does not overflow", "statement": "For all quantised values that can be decoded and all gains, each line below the bandwidth gets its estimate, and nothing overflows.", "quantifier": "for all quantised values, gains, spacings and memories within limits", "why_tests_cant": "It takes values that no encoder makes.", "anchors": ["decoder/ia_core_coder_tcx_fwd_alcnx.c:ia_core_coder_tcx_fdp_decode", "decoder/ia_core_coder_tcx_fwd_alcnx.c:ia_core_coder_tcx_mdct"]}
{"id": "C195", "title": "Rounded square roots are the nearest integers", "statement": "The rounded square root of a number of 64 bits is the integer nearest to the square root.", "quantifier": "for all numbers below 2^64", "why_tests_cant": "There are 2^64 arguments.", "anchors": ["decoder/ia_core_coder_basic_ops40.h:ia_core_coder_rounded_sqrt64"]}
{"id": "C196", "title": "Each line of a spectrum gets its value, or noise, times the scale factor of its band", "statement": "In a channel without gap filling, each line of a coded band is the power 4/3 of its quantised value limited to 8191, with its sign, times the scale factor of its band; lines that are 0 get the noise level with either sign, if the band starts at or above line 160 (20 in short windows) and below the last band with noise; the scale factor is moved by the noise offset exactly if all lines of the band are 0 in all windows of the group; nothing else changes.", "quantifier": "for all quantised values, scale factors, groupings, band tables, noise levels and seeds", "why_tests_cant": "Lines are addressed over groups, windows and bands, and whether a band is moved depends on all lines of a group.", "anchors": ["decoder/ia_core_coder_arith_dec.c:ia_core_coder_apply_scfs_and_nf", "decoder/ia_core_coder_arith_dec.c:impeghd_esc_iquant", "decoder/ia_core_coder_arith_dec.c:ia_core_coder_apply_scale_factor", "decoder/ia_core_coder_arith_dec.c:ia_core_coder_randomsign_fix"]}
{"id": "C197", "title": "Noise filling does not change coded lines", "statement": "Lines that are not 0 do not depend on the seed, the noise level, the noise offset, or where noise filling starts and ends.", "quantifier": "for all pairs of noise settings, and all quantised values, scale factors and groupings", "why_tests_cant": "It relates two runs of the decoder.", "anchors": ["decoder/ia_core_coder_arith_dec.c:ia_core_coder_apply_scfs_and_nf", "decoder/ia_core_coder_arith_dec.c:impeghd_esc_iquant"]}
{"id": "C198", "title": "There is no noise below the start of noise filling", "statement": "Lines that are 0 stay 0 without noise filling, in bands that start below line 160 (20 in short windows), and in bands at or above the last band with noise.", "quantifier": "for all quantised values, scale factors, groupings, band tables, noise levels and seeds", "why_tests_cant": "It must hold for all lines of all bands at all settings.", "anchors": ["decoder/ia_core_coder_arith_dec.c:ia_core_coder_apply_scfs_and_nf", "decoder/ia_core_coder_arith_dec.c:impeghd_esc_iquant"]}
{"id": "C199", "title": "Noise shaping of a channel inverts what an encoder with the same filters makes", "statement": "For filters one below the other, the decoder turns the prediction residual of a spectrum over the bands of each filter, in its direction, back into the spectrum; lines outside of the bands of all filters, and windows without filters, are unchanged.", "quantifier": "for all filters, directions, coefficients, band tables, numbers of bands and spectra, with and without gap filling", "why_tests_cant": "Filters are recursive over all lines of their bands, and where they start and end depends on three limits and on gap filling.", "anchors": ["decoder/ia_core_coder_tns.c:ia_core_coder_tns_apply", "decoder/ia_core_coder_tns.c:impeghd_tns_decode_coeff_ar_filter"]}
{"id": "C200", "title": "Accepted noise shaping is applied without error", "statement": "Noise shaping data that are accepted for a channel are filters one below the other, and are applied without error and without access outside of tables.", "quantifier": "for all bits, sampling rates, window lengths, numbers of bands and spectra, with and without gap filling", "why_tests_cant": "The set of accepted data is unbounded in combinations of filters.", "anchors": ["decoder/ia_core_coder_tns.c:ia_core_coder_tns_apply", "decoder/ia_core_coder_spectrum_dec.c:ia_core_coder_read_tns_u"]}
{"id": "C201", "title": "Coefficients of noise shaping are limited", "statement": "Coefficient i of a filter of order m is at most m over i in size, as reflection coefficients are sines.", "quantifier": "for all orders and all reflection coefficients of at most 1", "why_tests_cant": "Each step of the recursion doubles values in the worst case.", "anchors": ["decoder/ia_core_coder_tns.c:impeghd_tns_decode_coeff_ar_filter", "decoder/ia_core_coder_tcx_fwd_alcnx.c:ia_core_coder_tns_lpd_prepare_lp_coeffs"]}
{"id": "C202", "title": "Noise shaping in parts of linear prediction inverts what an encoder makes", "statement": "The decoder turns the residual of a part over the coded bands of its filter back into the part, whatever was decoded before.", "quantifier": "for all sampling rates, modes, bands, filters, parts, and groupings of earlier frames with short windows", "why_tests_cant": "It takes frames of short windows of any channel before a part of linear prediction.", "anchors": ["decoder/ia_core_coder_tcx_fwd_alcnx.c:ia_core_coder_tns_dec_lpd", "decoder/ia_core_coder_tcx_fwd_alcnx.c:ia_core_coder_tns_lpd_synth_filter", "decoder/ia_core_coder_tcx_fwd_alcnx.c:ia_core_coder_tns_lpd_prepare_lp_coeffs"]}
{"id": "C203", "title": "Parts of linear prediction without coded noise shaping are not filtered", "statement": "A part of a frame without noise shaping keeps its lines, whatever parts were decoded before.", "quantifier": "for all sequences of parts", "why_tests_cant": "It takes a frame with noise shaping before a frame with noise filling only.", "anchors": ["decoder/ia_core_coder_tcx_fwd_alcnx.c:ia_core_coder_tns_dec_lpd", "decoder/ia_core_coder_acelp_bitparse.c:ia_core_coder_tcx_coding"]}
{"id": "C204", "title": "Accepted noise shaping of parts of linear prediction is safe", "statement": "After any sequence of parts whose filters were accepted, noise shaping of a part ends without error, without access outside of the table of band offsets and of the coefficients, and without change of lines above the part.", "quantifier": "for all sequences of parts, all contents of the table of band offsets, sampling rates and bits", "why_tests_cant": "Filters are kept from part to part, and the table of band offsets is shared by all channels.", "anchors": ["decoder/ia_core_coder_tcx_fwd_alcnx.c:ia_core_coder_tns_dec_lpd", "decoder/ia_core_coder_spectrum_dec.c:ia_core_coder_read_tns_tcx"]}
{"id": "C205", "title": "Spectra of successive blocks of any window lengths are decoded with the right contexts", "statement": "The spectra of long windows, groups of short windows and parts of linear prediction that follow each other in one channel, each coded with the one before it as context at the same frequencies, are decoded to the numbers that were coded, if the first block has a reset.", "quantifier": "for all sequences of blocks, window lengths, numbers of coded lines, resets and numbers below 2^30, and all states before", "why_tests_cant": "Contexts are carried over between blocks of different lengths; an error shows only in later blocks.", "anchors": ["decoder/ia_core_coder_arith_dec.c:ia_core_coder_arith_map_context", "decoder/ia_core_coder_arith_dec.c:ia_core_coder_ac_spectral_data", "decoder/ia_core_coder_arith_dec.c:ia_core_coder_arith_data"]}
{"id": "C206", "title": "A coded frequency domain channel is decoded to what was coded", "statement": "The bits of a channel (gain, noise filling, windows, postfilter, harmonic prediction, aliasing symmetry, scale factors, gap filling, noise shaping, spectrum and aliasing cancellation) are decoded to the values that were coded, and what follows is left unread.", "quantifier": "for all values of all parts, windows, groupings, sampling rates, numbers of coded bands, spectra and contexts", "why_tests_cant": "The parts depend on each other: whether a part is present and how long it is depends on the parts before it.", "anchors": ["decoder/ia_core_coder_spectrum_dec.c:ia_core_coder_fd_channel_stream", "decoder/ia_core_coder_ext_ch_ele.c:ia_core_coder_ics_info"]}
{"id": "C207", "title": "Whether a channel is decoded does not depend on the size of the input", "statement": "A coded channel is decoded also if it is at the end of an input that fills the input buffer.", "quantifier": "for all coded channels and all sizes of input", "why_tests_cant": "It takes an input that fills the buffer exactly, with a channel of few bits at its end.", "anchors": ["decoder/ia_core_coder_spectrum_dec.c:ia_core_coder_fd_channel_stream", "decoder/ia_core_coder_decode_main.c:ia_core_coder_dec_main"]}
{"id": "C208", "title": "The gap is cut into one to four tiles made of whole bands", "statement": "For every accepted configuration of gap filling, the bands to be filled are cut into at most four tiles that follow each other, each of at least four lines and made of whole bands, up to the end of the range; without bands to fill there are no tiles.", "quantifier": "for all start and stop indices, resolutions, band tables and sampling rates above 1", "why_tests_cant": "The cut depends on the configuration and the band table; a wrong one shows only as copies from wrong lines.", "anchors": ["decoder/ia_core_coder_igf_dec.c:ia_core_coder_igf_get_num_tiles", "decoder/ia_core_coder_igf_dec.c:ia_core_coder_igf_init"]}
{"id": "C209", "title": "Lines of the gap are taken from lines of the coded part below it", "statement": "Each line of a tile is taken from the distance below it that the number of the tile says, or, if that lies below the smallest line, from the part wrapped around; the line taken lies between the smallest line and the start of the gap, and neighbours are taken from neighbours.", "quantifier": "for all tiles, tile numbers, start lines and smallest lines", "why_tests_cant": "Reading a line of the gap itself gives silence or a feedback of what was filled, in few configurations.", "anchors": ["decoder/ia_core_coder_igf_dec.c:ia_core_coder_igf_get_sb", "decoder/ia_core_coder_igf_dec.c:ia_core_coder_igf_get_tile_idx"]}
{"id": "C210", "title": "The smallest line copied lies at 1125 Hz", "statement": "The smallest line that gap filling copies is the even line at 1125 Hz or just above.", "quantifier": "for all sampling rates and kinds of windows", "why_tests_cant": "It takes an unusual sampling rate.", "anchors": ["decoder/ia_core_coder_igf_dec.c:ia_core_coder_igf_init"]}
{"id": "C211", "title": "Whitening reads lines of the spectrum only", "statement": "Whitening of the copied lines reads lines of the spectrum below the gap and nothing else.", "quantifier": "for all sampling rates and configurations", "why_tests_cant": "Reads before the start of a buffer inside a structure are not noticed.", "anchors": ["decoder/ia_core_coder_igf_dec.c:ia_core_coder_igf_apply_whitening"]}
{"id": "C212", "title": "Coded levels of bands are decoded", "statement": "The levels of the bands to be filled, coded as differences in the contexts of their neighbours in frequency and time with an arithmetic coder, are decoded over all windows of a frame, the bits behind them are left unread, and what is kept lets the next frame continue.", "quantifier": "for all levels, numbers of windows and bands, resolutions and what was kept before", "why_tests_cant": "Contexts and differences reach back over windows and frames; an error spreads to all later levels.", "anchors": ["decoder/ia_core_coder_igf_dec.c:ia_core_coder_get_igf_levels", "decoder/ia_core_coder_igf_dec.c:ia_core_coder_igf_arith_decode", "decoder/ia_core_coder_igf_dec.c:ia_core_coder_igf_arith_decode_residual"]}
{"id": "C213", "title": "Decoded levels are numbers", "statement": "Every level that is decoded without an error stands for a finite single precision number.", "quantifier": "for all coded levels", "why_tests_cant": "It takes extreme differences, which an encoder does not produce.", "anchors": ["decoder/ia_core_coder_igf_dec.c:ia_core_coder_get_igf_levels"]}
{"id": "C214", "title": "Tile numbers and whitening levels are read as coded", "statement": "The tile numbers, the levels of whitening and the flag of the envelope filter are delivered if and only if the bits are a code of them, with those of the frame before where the stream says so; tile numbers stay below 4 and levels of whitening at most 2.", "quantifier": "for all numbers of tiles from 1 on, kinds of windows, configurations, bits and data of the frame before", "why_tests_cant": "Values kept from the frame before make the result depend on the history.", "anchors": ["decoder/ia_core_coder_igf_dec.c:ia_core_coder_get_igf_data"]}
{"id": "C215", "title": "Levels for a range of bands that starts at or below the smallest line are rejected", "statement": "A frame with levels is rejected if the bands to be filled start at or below the smallest line, so that there is nothing to copy from.", "quantifier": "for all configurations, windows and bits", "why_tests_cant": "It takes a low sampling rate with short windows.", "anchors": ["decoder/ia_core_coder_igf_dec.c:ia_core_coder_get_igf_levels"]}
{"id": "C216", "title": "A filled band gets the coded level", "statement": "After gap filling, a band of a group of windows has the energy that its coded level says if the coded lines have less and the copied lines have enough; otherwise what can be reached with a gain of 10.", "quantifier": "for all spectra, copies, levels, groupings, bands, tiles, levels of whitening and seeds", "why_tests_cant": "Energies of filled bands depend on all lines of all windows of the group and on pseudo random signs drawn twice.", "anchors": ["decoder/ia_core_coder_igf_dec.c:ia_core_coder_igf_mono", "decoder/ia_core_coder_igf_dec.c:ia_core_coder_igf_calc_mono", "decoder/ia_core_coder_igf_dec.c:ia_core_coder_igf_apply_mono"]}
{"id": "C217", "title": "Gap filling changes empty lines of the gap only", "statement": "Gap filling of long and short windows leaves coded lines and lines outside the gap as they are; an empty line becomes its copied line or noise, with a gain of at most 10 that is the same over a band; frames coded as all zero stay as they are.", "quantifier": "for all spectra, copies, levels, groupings, bands, tiles, levels of whitening and seeds", "why_tests_cant": "Every line of every window has to be looked at, for all positions of coded lines.", "anchors": ["decoder/ia_core_coder_igf_dec.c:ia_core_coder_igf_mono", "decoder/ia_core_coder_igf_dec.c:ia_core_coder_igf_apply_mono"]}
{"id": "C218", "title": "Levels cut off at the end of the input are reported", "statement": "If the input ends within the coded levels, decoding fails.", "quantifier": "for all inputs", "why_tests_cant": "Reads outside the input are not noticed without instrumentation.", "anchors": ["decoder/ia_core_coder_igf_dec.c:ia_core_coder_get_igf_levels", "decoder/ia_core_coder_arith_dec.c:ia_core_coder_arith_first_symbol"]}
{"id": "C219", "title": "A filled band of a linear prediction window gets the coded level", "statement": "After gap filling in windows of linear prediction, a band whose coded lines have less energy than its level, with enough to copy, has the energy that its level says.", "quantifier": "for all spectra, copies and levels", "why_tests_cant": "The energies have to be measured per band inside the decoder.", "anchors": ["decoder/ia_core_coder_igf_dec.c:ia_core_coder_igf_rescale", "decoder/ia_core_coder_igf_dec.c:ia_core_coder_igf_apply_mono"]}
{"id": "C220", "title": "A configuration of higher order ambisonics is delivered exactly for its code", "statement": "A configuration is delivered if and only if the bits read are a code of it within the limits of its fields, for the given number of channels and a frame length of 1024; the bits behind it are left unread.", "quantifier": "for all bits, numbers of channels and frame lengths", "why_tests_cant": "Widths of fields depend on fields before them; all orders, both escapes and all optional parts have to be combined.", "anchors": ["decoder/impeghd_hoa_config.c:impeghd_fill_config", "decoder/impeghd_hoa_common_functions.c:impeghd_hoa_get_ceil_log2"]}
{"id": "C221", "title": "The numbers derived from an accepted configuration fit together", "statement": "For an accepted configuration, channels are those of the smallest ambience and the additional ones, elements of a vector and coefficients outside it make up all coefficients, the widths of indices are the smallest possible, and coded exponents of the frame before are powers that the tables have.", "quantifier": "for all accepted configurations", "why_tests_cant": "Derived numbers are internal; a wrong width shows as a wrong value much later in a frame.", "anchors": ["decoder/impeghd_hoa_config.c:impeghd_fill_config", "decoder/impeghd_hoa_config.c:impeghd_hoa_v_vec_len_and_coeff_calc"]}
{"id": "C222", "title": "The ambience is not sent with an order larger than that of the signal", "statement": "For every accepted configuration, the largest order of the ambience that is sent is at most the order of the signal.", "quantifier": "for all bits", "why_tests_cant": "It takes a configuration no encoder makes.", "anchors": ["decoder/impeghd_hoa_config.c:impeghd_fill_config"]}
{"id": "C223", "title": "Huffman coded numbers of bits are decoded", "statement": "For each of the 50 tables of code words, a symbol is delivered if and only if the bits are its word, the symbols are those below the number of bits of the elements, and any 11 bits begin with a word.", "quantifier": "for all tables, symbols and bits", "why_tests_cant": "All words of all tables have to be tried, with all bits behind them.", "anchors": ["decoder/impeghd_hoa_frame.c:impeghd_hoa_huffman_decode"]}
{"id": "C224", "title": "Parsing frames of higher order ambisonics stays inside the arrays", "statement": "For every accepted configuration and any sequence of accepted frames, parsing a further frame accesses no array outside its bounds, whatever the bits are.", "quantifier": "for all accepted configurations, sequences of frames and bits", "why_tests_cant": "Writes beyond an array inside a structure change its neighbours and are not noticed.", "anchors": ["decoder/impeghd_hoa_frame.c:impeghd_hoa_frame", "decoder/impeghd_hoa_frame.c:impeghd_hoa_frame_v_vector_data"]}
{"id": "C225", "title": "Vectors use entries that their codebooks have", "statement": "If a frame with vectors from codebooks is accepted, decoding its vectors reads the codebooks only at entries that they have.", "quantifier": "for all accepted configurations and frames", "why_tests_cant": "Reads behind a constant table deliver the constants that follow it.", "anchors": ["decoder/impeghd_hoa_frame.c:impeghd_hoa_frame_v_vector_data", "decoder/impeghd_hoa_spatial_decoder.c:impeghd_hoa_spatial_decode_frame_side_info"]}
{"id": "C226", "title": "The elements of vectors have their coded values", "statement": "The elements of a vector sent with words of 8 bits are the words over 128, less 1; Huffman coded ones are the coded integers scaled by the number of bits; elements that are not sent are 0; all times the order plus 1.", "quantifier": "for all vectors, tables, configurations and combinations of channels", "why_tests_cant": "The vector has to be compared for all positions of its channel among the others.", "anchors": ["decoder/impeghd_hoa_frame.c:impeghd_hoa_frame_v_vector_data", "decoder/impeghd_hoa_spatial_decoder.c:impeghd_hoa_spatial_decode_frame_side_info"]}
{"id": "C227", "title": "Prediction uses the gains that were sent for its signals", "statement": "The factors that predict a coefficient from directional signals are the gains that the frame has for these signals.", "quantifier": "for all frames with prediction", "why_tests_cant": "It takes a coefficient that is predicted from some of the signals only.", "anchors": ["decoder/impeghd_hoa_frame.c:impeghd_hoa_frame", "decoder/impeghd_hoa_spatial_decoder.c:impeghd_hoa_spatial_decode_frame_side_info"]}
{"id": "C228", "title": "Frames without directional signals are not predicted", "statement": "In a frame that has no directional signals, or whose flag says so, no coefficient is predicted.", "quantifier": "for all sequences of frames", "why_tests_cant": "It takes a frame with prediction followed by one without directional signals.", "anchors": ["decoder/impeghd_hoa_frame.c:impeghd_hoa_frame", "decoder/impeghd_hoa_spatial_decoder.c:impeghd_hoa_spatial_decode_frame_side_info"]}
{"id": "C229", "title": "Gain exponents of accepted frames are powers that the tables have", "statement": "The gain of every channel of an accepted frame can be computed inside the tables of powers.", "quantifier": "for all accepted frames and channels", "why_tests_cant": "It takes a code of more than 64 bits for one exponent.", "anchors": ["decoder/impeghd_hoa_frame.c:impeghd_hoa_frame", "decoder/impeghd_hoa_spatial_decoder.c:impeghd_hoa_get_exponents", "decoder/impeghd_hoa_inverse_dyn_correction.c:impeghd_hoa_inv_dyn_correction_process"]}
{"id": "C230", "title": "A coded gain exponent changes the gain by that power of 2", "statement": "Over a frame, the gain of a channel goes from its last value to that value times 2 to the power of the coded exponent, and the next frame starts from there.", "quantifier": "for all exponents that can be coded, with and without exception, and all gains before", "why_tests_cant": "Large exponents do not occur in usual streams.", "anchors": ["decoder/impeghd_hoa_inverse_dyn_correction.c:impeghd_hoa_inv_dyn_correction_process"]}
{"id": "C231", "title": "Coefficients of the ambience are taken from the channels they are sent in", "statement": "For every accepted frame, a coefficient of the ambience is taken from the channel that it is sent in, and coefficients that are not sent from none.", "quantifier": "for all accepted frames", "why_tests_cant": "Writes outside the table of channels are not noticed.", "anchors": ["decoder/impeghd_hoa_spatial_decoder.c:impeghd_hoa_spatial_decode_frame_side_info", "decoder/impeghd_hoa_spatial_decoder.c:impeghd_hoa_spatial_process"]}
{"id": "C232", "title": "Sets of coefficients are sorted without loss or repetition", "statement": "Sorting a set of indices of coefficients gives each of them once, in ascending order.", "quantifier": "for all lists of indices", "why_tests_cant": "All orders and repetitions of up to 49 indices would have to be tried.", "anchors": ["decoder/impeghd_hoa_spatial_decoder.c:impeghd_hoa_spatial_sort_array_ascending"]}
{"id": "C233", "title": "All channels of directional signals and vectors are marked as active", "statement": "The set of channels with predominant sound has the channels of all directional signals and all vectors of the frame.", "quantifier": "for all frames", "why_tests_cant": "It takes both kinds in the same frame.", "anchors": ["decoder/impeghd_hoa_pre_dom_sound_syn.c:impeghd_hoa_pre_dom_sound_syn_process"]}
{"id": "C234", "title": "Elements of a vector are left out as its own channel says", "statement": "The elements of a vector that are not in the bits are those of coefficients sent as ambience without a change, and, if the vector of the channel is new, those of coefficients that fade in.", "quantifier": "for all frames and combinations of channels", "why_tests_cant": "It takes a coefficient that fades in together with a new vector on another channel.", "anchors": ["decoder/impeghd_hoa_frame.c:impeghd_hoa_frame_v_vector_data"]}
{"id": "C235", "title": "Vectors are predicted from those of the same channel in the frame before", "statement": "With prediction, the elements of a vector are the coded ones plus those of the vector of the same channel in the frame before, where elements are sent.", "quantifier": "for all sequences of frames and combinations of channels", "why_tests_cant": "It takes a prediction on a channel with another kind of channel before it.", "anchors": ["decoder/impeghd_hoa_spatial_decoder.c:impeghd_hoa_spatial_decode_frame_side_info"]}
{"id": "C236", "title": "What a frame says about the channels of higher order ambisonics is what is coded", "statement": "An accepted frame begins with its flag, the codes of the additional channels and the codes of the gains of the others; the uses, gains, exponents and lists of signals and vectors of the frame are those of the codes, in the order of the channels.", "quantifier": "for all accepted configurations, states and bits", "why_tests_cant": "Codes of a channel depend on the configuration, the kind of frame and the frame before; all combinations over all channels have to be compared.", "anchors": ["decoder/impeghd_hoa_frame.c:impeghd_hoa_frame"]}
{"id": "C237", "title": "Coefficients of additional ambience are ones the signal has", "statement": "A coefficient of the ambience that an additional channel of an accepted frame carries is not one of the smallest ambience and is smaller than the number of coefficients of the signal.", "quantifier": "for all accepted configurations, states and frames", "why_tests_cant": "It takes a frame no encoder makes; the number is used as an index later.", "anchors": ["decoder/impeghd_hoa_frame.c:impeghd_hoa_frame"]}
{"id": "C238", "title": "Decoding of higher order ambisonics can start at an independent frame", "statement": "Two decoders of the same configuration that accept the same independent frame agree on the uses of all channels, their gains, the gains signals start with, and the lists of signals and vectors, whatever was decoded before.", "quantifier": "for all accepted configurations, earlier states and frames", "why_tests_cant": "It compares two runs over all pasts.", "anchors": ["decoder/impeghd_hoa_frame.c:impeghd_hoa_frame", "decoder/impeghd_hoa_spatial_decoder.c:impeghd_hoa_spatial_process"]}
{"id": "C239", "title": "Noise of gap filling is taken from one generator, line after line", "statement": "The empty lines of a band that take noise get the successive values of the generator, each times the gain of the band, and after the frame the generator has been stepped as often as there are lines of noise.", "quantifier": "for all channels, bands, gains and seeds", "why_tests_cant": "A value used twice or skipped is not heard and no test compares noise with noise.", "anchors": ["decoder/ia_core_coder_igf_dec.c:ia_core_coder_igf_apply_mono"]}
{"id": "C240", "title": "Coefficients of higher order ambisonics are linear in the decoded channels", "statement": "For a given frame and past, the coefficients are the sum of the contributions of vectors, ambience, predictions and directions and a linear function of the signals of the channels; what is kept for the next frame does not depend on the signals.", "quantifier": "for all configurations, frames, pasts and signals", "why_tests_cant": "Linearity is a statement on all pairs of signals.", "anchors": ["decoder/impeghd_hoa_spatial_decoder.c:impeghd_hoa_spatial_process", "decoder/impeghd_hoa_dir_based_pre_dom_sound_syn.c:impeghd_hoa_dir_based_pre_dom_sound_syn_process"]}
{"id": "C241", "title": "Directions of consecutive frames are cross-faded", "statement": "The signal of a channel with a direction in two consecutive frames is heard from the old direction times the falling window plus the new direction times the rising window; if the direction stays and the windows add up to 1, it is heard at its level.", "quantifier": "for all configurations, pairs of frames, pasts, signals, coefficients and samples", "why_tests_cant": "The windows depend on lists of channels of two frames.", "anchors": ["decoder/impeghd_hoa_dir_based_pre_dom_sound_syn.c:impeghd_hoa_compute_hoa_repr_of_dir_sigs"]}
{"id": "C242", "title": "Directions depend on the frame and the one before only", "statement": "What is heard of a frame does not depend on the channels' directions two frames before.", "quantifier": "for all sequences of frames", "why_tests_cant": "A test needs two streams that differ in a frame that has been left behind.", "anchors": ["decoder/impeghd_hoa_dir_based_pre_dom_sound_syn.c:impeghd_hoa_compute_hoa_repr_of_dir_sigs"]}
{"id": "C243", "title": "A channel that changes between a direction and a vector is cross-faded", "statement": "If a channel has a vector in one frame and a direction in the next, or the other way round, the old one is faded out while the new one is faded in.", "quantifier": "for all pairs of frames", "why_tests_cant": "The error is a change of level for one frame.", "anchors": ["decoder/impeghd_hoa_dir_based_pre_dom_sound_syn.c:impeghd_hoa_compute_hoa_repr_of_dir_sigs", "decoder/impeghd_hoa_vector_based_predom_sound_syn.c:impeghd_hoa_vector_based_predom_sound_syn_process"]}
{"id": "C244", "title": "Vectors of consecutive frames are interpolated", "statement": "The signal of a channel with a vector in two consecutive frames is multiplied by the old vector times the falling window, up to the time of interpolation, plus the new vector times the rising window; a vector that stays keeps its level. A coefficient that the ambience starts or ends to send is faded out of or into the vectors.", "quantifier": "for all configurations with up to 16 additional channels, pairs of frames, pasts, signals, coefficients and samples", "why_tests_cant": "Lists of two frames, windows and the ambience meet in one loop.", "anchors": ["decoder/impeghd_hoa_vector_based_predom_sound_syn.c:impeghd_hoa_vector_based_predom_sound_syn_process"]}
{"id": "C245", "title": "Coefficients of the ambience come from the channels that carry them", "statement": "A coefficient above the smallest ambience is the signal of the channel it is sent in and silent if it is sent in none; the smallest ambience is its matrix applied to the last channels.", "quantifier": "for all configurations, frames without a coefficient in two channels, and signals", "why_tests_cant": "All assignments of channels have to be tried.", "anchors": ["decoder/impeghd_hoa_amb_syn.c:impeghd_hoa_ambience_synthesis_process", "decoder/impeghd_hoa_spatial_decoder.c:impeghd_hoa_spatial_process"]}
{"id": "C246", "title": "Predictions of consecutive frames are cross-faded", "statement": "Predictions of the frame before are multiplied by the falling window and those of the frame by the rising one; predictions that stay keep their level; a coefficient that the ambience sends without a change is not predicted.", "quantifier": "for all configurations with additional channels, predictions, signals, coefficients and samples", "why_tests_cant": "Both sets of predictions and the ambience have to be varied together.", "anchors": ["decoder/impeghd_hoa_dir_based_pre_dom_sound_syn.c:impeghd_hoa_compute_smoothed_hoa_representation_of_spat_pred_sigs"]}
{"id": "C247", "title": "A prediction is the sum of all signals it names", "statement": "The predicted signal of a direction is the sum over all named signals of their factor times the signal.", "quantifier": "for all accepted frames", "why_tests_cant": "It takes a frame that names a second signal but no first.", "anchors": ["decoder/impeghd_hoa_dir_based_pre_dom_sound_syn.c:impeghd_hoa_compute_hoa_representation_of_spat_pred"]}
{"id": "C248", "title": "Factors of predictions have either sign and are below 1", "statement": "The factors of predictions lie between -1 and 1 and take both signs.", "quantifier": "for all configurations and codes", "why_tests_cant": "All codes of all widths have to be tried.", "anchors": ["decoder/impeghd_hoa_dir_based_pre_dom_sound_syn.c:impeghd_hoa_compute_smoothed_hoa_representation_of_spat_pred_sigs", "decoder/impeghd_hoa_frame.c:impeghd_hoa_frame"]}
{"id": "C249", "title": "The codes of the lag of the long term post filter are in order and fit the history", "statement": "At sampling rates from 16942 to 48000 Hz the 512 codes are for different lags in increasing order, from the smallest lag, in steps of half a sample, to the largest lag, for which enough output samples are kept; fractions are 0 or 1.", "quantifier": "for all sampling rates from 16942 to 48000 and all codes", "why_tests_cant": "Three ranges of codes meet at places that depend on the sampling rate.", "anchors": ["decoder/ia_core_coder_ltpf.c:ia_core_coder_ltpf_dec_params", "decoder/ia_core_coder_ltpf.c:ia_core_coder_ltpf_init"]}
{"id": "C250", "title": "No output of the long term post filter depends on later input samples", "statement": "Two frames that agree up to a sample, in the same state and with the same data, have the same output at this sample, at all accepted sampling rates.", "quantifier": "for all sampling rates, states, data and pairs of frames", "why_tests_cant": "Dependence on the future needs a code of the lag that is not covered by the history, at a rare sampling rate.", "anchors": ["decoder/ia_core_coder_ltpf.c:ia_core_coder_usac_ltpf_process", "decoder/ia_core_coder_ltpf.c:ia_core_coder_ltpf_filter"]}
{"id": "C251", "title": "Frames of the long term post filter form one filtered signal", "statement": "For any sequence of frames there is one output signal without gaps such that the first half of each frame satisfies the equation of the filter of the frame before and the last three eighths the one of its own, over frame borders; in between, the filter stays, is faded in or is faded out with a linear ramp.", "quantifier": "for all sequences of frames with lags that fit the history, states and signals", "why_tests_cant": "The history is copied between buffers at each frame; an error is heard only with certain lags.", "anchors": ["decoder/ia_core_coder_ltpf.c:ia_core_coder_usac_ltpf_process", "decoder/ia_core_coder_ltpf.c:ia_core_coder_ltpf_filter"]}
{"id": "C252", "title": "A long term post filter that does not change is one recursive filter", "statement": "With the same data in all frames, the whole output satisfies a single recursive equation, in all parts of all frames; it does not depend on where frames begin.", "quantifier": "for all numbers of frames, frame lengths, data with lags that fit the history, and signals", "why_tests_cant": "Frames are filtered in three parts with different buffers.", "anchors": ["decoder/ia_core_coder_ltpf.c:ia_core_coder_usac_ltpf_process", "decoder/ia_core_coder_ltpf.c:ia_core_coder_ltpf_filter"]}
{"id": "C253", "title": "Without data the long term post filter changes nothing", "statement": "A frame without data after a frame without data is put out as it is.", "quantifier": "for all states with the filter off, sampling rates, frame lengths and frames", "why_tests_cant": "All of the state is irrelevant, which tests cannot show.", "anchors": ["decoder/ia_core_coder_ltpf.c:ia_core_coder_usac_ltpf_process", "decoder/ia_core_coder_ltpf.c:ia_core_coder_ltpf_filter"]}
{"id": "C254", "title": "The long term post filter does not blow up", "statement": "If all samples of the input are at most B, all outputs are at most 2 B, over all sequences of frames.", "quantifier": "for all sequences of data and signals, all lags and frame lengths", "why_tests_cant": "A recursive filter can take long to become unstable.", "anchors": ["decoder/ia_core_coder_ltpf.c:ia_core_coder_usac_ltpf_process", "decoder/ia_core_coder_ltpf.c:ia_core_coder_ltpf_filter"]}
{"id": "C255", "title": "The prediction for changes of the post filter never divides by zero", "statement": "The recursion that computes the prediction filter divides by the energy, which is at least 100, and by the energy left over, which is positive as long as the recursion goes on.", "quantifier": "for all signals, places and lengths and all rounds", "why_tests_cant": "Predictable signals that leave no energy are special.", "anchors": ["decoder/ia_core_coder_ltpf.c:ia_core_coder_ltpf_get_lpc"]}
{"id": "C256", "title": "Resampling does not depend on how a signal is cut into frames", "statement": "From cleared memory, the output of all frames is one fixed linear function of the whole input signal, with no trace of the borders of frames, and each frame has the length times the ratio.", "quantifier": "for all factors 2 and 3, with and without the second filter, all frame lengths from 30 on and all sequences of frames", "why_tests_cant": "Three memories are carried over frames; an error is a click at the border.", "anchors": ["decoder/impeghd_resampler.c:impeghd_resample"]}
{"id": "C257", "title": "Resampling by a factor is a filter of held samples", "statement": "The signal at the higher rate is the input with each sample held, filtered with the taps of the table, up to a delay.", "quantifier": "for all signals and places", "why_tests_cant": "The level of slow signals is right in any case; only the response to a single sample shows it.", "anchors": ["decoder/impeghd_resampler.c:impeghd_resample", "decoder/impeghd_resampler_rom.c:impeghd_resampler_filter"]}
{"id": "C258", "title": "Resampling keeps the level of constant signals", "statement": "The output for a signal that is constant for long enough differs from it by at most a part of 1/100000, at all places within a group.", "quantifier": "for all factors, levels, signals that are constant in a window, and places", "why_tests_cant": "Different places within a group use different taps.", "anchors": ["decoder/impeghd_resampler.c:impeghd_resample", "decoder/impeghd_resampler_rom.c:impeghd_resampler_filter_3"]}
{"id": "C259", "title": "Loudness normalisation reaches the output", "statement": "All samples that are put out are multiplied by the gain of the loudness normalisation, with and without resampling.", "quantifier": "for all gains, numbers of channels, signals and ratios", "why_tests_cant": "It needs a stream with loudness information and resampling at the same time.", "anchors": ["decoder/ia_core_coder_decode_main.c:impegh_dec_ln_pl_process"]}
{"id": "C260", "title": "Loudness normalisation stays within the samples", "statement": "The loop that applies the gain touches the samples of the output channels only, whatever their number and the ratio of resampling.", "quantifier": "for all numbers of channels up to 24 and all ratios", "why_tests_cant": "It takes 24 channels, resampling and a gain.", "anchors": ["decoder/ia_core_coder_decode_main.c:impegh_dec_ln_pl_process"]}
{"id": "C261", "title": "Object metadata reach an external renderer as decoded", "statement": "Whoever reads the metadata the interface puts out, knowing only the syntax, gets for every object its number and for every sub-frame with metadata the coded position, gain, priority and spread the decoder holds, and the sub-frame length.", "quantifier": "for all states of the object decoder, configurations, up to 24 objects and contents of the buffer", "why_tests_cant": "The interface needs a second implementation to be tested at all.", "anchors": ["decoder/impeghd_ext_rend_intrfc.c:impeghd_write_oam_meta_data_for_ext_ren", "decoder/impeghd_ext_rend_intrfc.c:impeghd_get_goa_ele_id", "decoder/ia_core_coder_bitbuffer.c:impeghd_write_bits_buf"]}
{"id": "C262", "title": "Object metadata fit their buffer", "statement": "The length of the object metadata for an external renderer never exceeds the 768 bytes of the buffer they are written to.", "quantifier": "for all numbers of objects the decoder accepts and all their metadata", "why_tests_cant": "It takes many objects with many exclusion sectors at once.", "anchors": ["decoder/impeghd_ext_rend_intrfc.c:impeghd_write_oam_meta_data_for_ext_ren", "decoder/ia_core_coder_bitbuffer.c:impeghd_create_write_bit_buffer"]}
{"id": "C263", "title": "Announced production metadata are sent", "statement": "When the object metadata announce an extension element of some length, as many bytes follow.", "quantifier": "for all lengths, objects and configurations", "why_tests_cant": "A receiver that ignores production metadata at the end of the payload sees nothing.", "anchors": ["decoder/impeghd_ext_rend_intrfc.c:impeghd_write_oam_meta_data_for_ext_ren", "decoder/impeghd_ext_rend_intrfc.c:impeghd_write_goa_prod_meta_data_for_ext_ren"]}
{"id": "C264", "title": "Diffuseness and divergence reach an external renderer", "statement": "The seven bits of diffuseness and of divergence sent to an external renderer are the seven bits of the stream.", "quantifier": "for all codes and objects", "why_tests_cant": "Most streams have no diffuse objects.", "anchors": ["decoder/impeghd_ext_rend_intrfc.c:impeghd_write_oam_meta_data_for_ext_ren", "decoder/impeghd_oam_dec.c:impeghd_enh_obj_md_frame"]}
{"id": "C265", "title": "Decoded object metadata are announced to an external renderer", "statement": "A sub-frame of an object for which the stream has metadata is sent with metadata.", "quantifier": "for all sequences of frames, numbers of objects and objects", "why_tests_cant": "It takes several objects or frames without differences.", "anchors": ["decoder/impeghd_ext_rend_intrfc.c:impeghd_write_oam_meta_data_for_ext_ren", "decoder/impeghd_oam_dec_ld.c:impeghd_obj_md_low_delay_dec"]}
{"id": "C266", "title": "Objects are sent with fixed position and priority of their group", "statement": "Fixed position and priority sent with an object are those of the signal group the object belongs to.", "quantifier": "for all sequences of signal groups and objects", "why_tests_cant": "With one group of objects and no channels it cannot fail for the first object.", "anchors": ["decoder/impeghd_ext_rend_intrfc.c:impeghd_write_oam_meta_data_for_ext_ren"]}
{"id": "C267", "title": "Groups of channels reach an external renderer as configured", "statement": "Whoever reads the channel metadata, knowing only the syntax, gets for every group of channels the number of its signals, its layout, fixed position and priority.", "quantifier": "for all sequences of signal groups and all layouts given by number or list", "why_tests_cant": "The order of groups is the choice of the encoder.", "anchors": ["decoder/impeghd_ext_rend_intrfc.c:impeghd_write_ch_meta_data_for_ext_ren", "decoder/impeghd_ext_rend_intrfc.c:impeghd_write_speaker_config_3d"]}
{"id": "C268", "title": "Loudspeaker layouts reach an external renderer as configured", "statement": "A layout written for an external renderer is read back as it was coded in the stream, by the reader the decoder itself uses for it or by one that knows only the syntax.", "quantifier": "for all layouts", "why_tests_cant": "Layouts of loudspeakers at free positions are rare.", "anchors": ["decoder/impeghd_ext_rend_intrfc.c:impeghd_write_speaker_config_3d", "decoder/impeghd_ext_rend_intrfc.c:impeghd_write_flexispk_config", "decoder/ia_core_coder_init_config.c:impeghd_flexispk_config"]}
{"id": "C269", "title": "Downmix matrices reach an external renderer", "statement": "Whoever reads the downmix configuration gets type, flags and as many downmixes as are announced, each with its matrices bit by bit.", "quantifier": "for all configurations within the fields", "why_tests_cant": "Streams with several downmixes for several layouts are rare.", "anchors": ["decoder/impeghd_ext_rend_intrfc.c:impeghd_write_downmix_cfg"]}
{"id": "C270", "title": "Samples for an external renderer hold the decoded signal", "statement": "The bytes handed to an external renderer are, for every time and within it for every channel, the decoded sample in 24 bits, limited to their range.", "quantifier": "for all numbers of channels, frames and samples", "why_tests_cant": "Overflows need extreme samples.", "anchors": ["decoder/ia_core_coder_decode_main.c:ia_core_coder_dec_ext_ele_proc"]}
{"id": "C271", "title": "Vectors of several codebook entries are normalised weighted sums", "statement": "A vector coded with several entries of a codebook is the sum of these entries, each times its weight and sign, scaled to the length order plus 1 for all codebooks that are to be normalised.", "quantifier": "for all orders, codebooks, indices, weights and signs", "why_tests_cant": "Encoders choose few entries and codebooks; more than eight entries are rare.", "anchors": ["decoder/impeghd_hoa_spatial_decoder.c:impeghd_hoa_spatial_process"]}
{"id": "C272", "title": "Vectors leave out coefficients that are sent as ambience", "statement": "With vectors of kind 1 a vector from a codebook is 0 in every coefficient that has a channel of its own, and as the codebook says in all others; vectors of other kinds keep all elements.", "quantifier": "for all frames, configurations and codebooks", "why_tests_cant": "Ambience channels that come and go are needed.", "anchors": ["decoder/impeghd_hoa_frame.c:impeghd_hoa_frame_v_vector_data", "decoder/impeghd_hoa_spatial_decoder.c:impeghd_hoa_spatial_process"]}
{"id": "C273", "title": "Every vector of a frame has its own entries of the codebook", "statement": "A channel whose vector is taken from a codebook gets the entries that are coded for this channel.", "quantifier": "for all frames with any number of vectors", "why_tests_cant": "With one vector in a frame it cannot fail.", "anchors": ["decoder/impeghd_hoa_frame.c:impeghd_hoa_frame_v_vector_data", "decoder/impeghd_hoa_spatial_decoder.c:impeghd_hoa_spatial_process", "decoder/impeghd_hoa_dec_struct.h:vvec_idx"]}
{"id": "C274", "title": "Numbers below a limit are coded without gaps", "statement": "For every size of an alphabet every number below it has a code of its own, is read back, takes the bits of the size or one less, and every number read is below the size.", "quantifier": "for all alphabet sizes below 2^24, all numbers and all streams", "why_tests_cant": "Sizes that are no powers of two split the alphabet in two parts; tests see few sizes.", "anchors": ["decoder/impeghd_dmx_mtx.c:impeghd_read_range"]}
{"id": "C275", "title": "Each loudspeaker is in exactly one element of the compact configuration", "statement": "The compact configuration of a downmix matrix holds each loudspeaker once; an element is a loudspeaker in the middle, a mirrored pair with the left one first, or a loudspeaker on a side, and no two of the last kind mirror each other.", "quantifier": "for all lists of loudspeakers", "why_tests_cant": "Pairs depend on the order of loudspeakers; there are many lists.", "anchors": ["decoder/impeghd_dmx_mtx.c:impeghd_convert_to_compact_config"]}
{"id": "C276", "title": "A downmix matrix is decoded independently of the gains before it", "statement": "What is decoded from a stream with a downmix matrix is the same whatever the matrix held before, for every input and every output channel.", "quantifier": "for all streams, layouts and old contents", "why_tests_cant": "Elements that are left as they are show only with a certain old matrix.", "anchors": ["decoder/impeghd_dmx_mtx.c:impeghd_decode_downmix_matrix"]}
{"id": "C277", "title": "Every downmix matrix is read back", "statement": "A matrix whose gains are in the range coded, with flags of pairs that separate and are symmetric, is decoded exactly from its code.", "quantifier": "for all matrices, pairs of layouts, flags, ranges, precisions and both codings of gains", "why_tests_cant": "The matrices are combinations of flags, pairs and gains without number.", "anchors": ["decoder/impeghd_dmx_mtx.c:impeghd_decode_downmix_matrix", "decoder/impeghd_dmx_mtx.c:impeghd_decode_gain"]}
{"id": "C278", "title": "Matrices coded against a template are decoded", "statement": "A downmix matrix whose places are coded against the template for its layouts is decoded and used.", "quantifier": "for all layouts that have a template", "why_tests_cant": "Streams for tests seldom use templates.", "anchors": ["decoder/impeghd_dmx_mtx.c:impeghd_find_comp_tmplt", "decoder/impeghd_dmx_mtx.c:impeghd_decode_downmix_matrix", "decoder/ia_core_coder_decode_main.c:impeghd_decode_downmix_matrix"]}
{"id": "C279", "title": "The table of gains holds each gain once and fits its array", "statement": "The table of gains holds each gain of the range and precision once, and silence, and is not larger than the array for it.", "quantifier": "for all ranges and precisions that can be coded", "why_tests_cant": "Only the largest ranges go beyond the array.", "anchors": ["decoder/impeghd_dmx_mtx.c:impeghd_generate_gain_table", "decoder/impeghd_dmx_mtx_data.h:gain_tab"]}
{"id": "C280", "title": "Only gains of the table are decoded", "statement": "Each gain of the table can be coded in two ways that both give it back, and nothing else is decoded from any stream.", "quantifier": "for all ranges, precisions, lengths of codes and streams", "why_tests_cant": "Codes that no encoder writes are needed.", "anchors": ["decoder/impeghd_dmx_mtx.c:impeghd_decode_gain", "decoder/impeghd_dmx_mtx.c:impeghd_generate_gain_table"]}
{"id": "C281", "title": "Decoding of downmix matrices does not read memory that was not written", "statement": "The matrix decoded depends on the stream and the layouts alone, not on the contents of scratch memory.", "quantifier": "for all streams, layouts and contents of the memory", "why_tests_cant": "Tests run with memory that happens to be cleared.", "anchors": ["decoder/impeghd_dmx_mtx.c:impeghd_decode_downmix_matrix", "decoder/impeghd_dmx_mtx.c:impeghd_decode_gain"]}
{"id": "C282", "title": "Equalisers decoded are within the limits of the format", "statement": "Every equaliser configuration decoded has 1 to 39 equalisers with 1 to 19 filters, whose centre frequencies ascend from 10 Hz to 24 kHz, whose quality factors are 0.05 to 10.6 and whose gains are at least -16 dB; a channel uses none or one of them.", "quantifier": "for all streams and numbers of channels", "why_tests_cant": "Frequencies are coded as differences with a changing power of ten.", "anchors": ["decoder/impeghd_dmx_mtx.c:impeghd_decode_eq_config"]}
{"id": "C283", "title": "An equaliser configuration is taken or refused by its contents", "statement": "Whether an equaliser configuration is accepted depends on the configuration alone: it is accepted if there are at most 12 equalisers.", "quantifier": "for all streams, numbers of channels and contents of memory", "why_tests_cant": "It takes more equalisers than channels and certain old memory.", "anchors": ["decoder/impeghd_dmx_mtx.c:impeghd_decode_downmix_matrix", "decoder/impeghd_dmx_mtx.c:impeghd_decode_eq_config"]}
{"id": "C284", "title": "Run length coded places are read back and stay inside their array", "statement": "Each list of places of gains is read back from its run length code, and no stream makes the reader write behind the array.", "quantifier": "for all lists, parameters of the code and streams", "why_tests_cant": "Only streams made on purpose have runs behind the end.", "anchors": ["decoder/impeghd_dmx_mtx.c:impeghd_decode_flat_compact_mtx"]}
{"id": "C285", "title": "Flags of a matrix hold for the gains decoded", "statement": "In a decoded matrix elements without a place are silent, separable pairs have no gains across, symmetric pairs have the same gains, and all gains are silence or from the coder.", "quantifier": "for all streams, layouts and flags", "why_tests_cant": "The rule joins four kinds of elements with two flags.", "anchors": ["decoder/impeghd_dmx_mtx.c:impeghd_decode_downmix_matrix"]}
{"id": "C286", "title": "A decoded matrix sets all bands of the converter", "statement": "Each of the 257 bands of the format converter is set from the decoded matrix; silence gives nothing, without an equaliser all bands are alike, and with one a band has the curve at its ERB band times the gain.", "quantifier": "for all matrices, equalisers, bands and old contents", "why_tests_cant": "Bands are visited by ERB tables.", "anchors": ["decoder/impeghd_dmx_mtx.c:impeghd_decode_downmix_matrix", "decoder/impeghd_dmx_mtx.c:impeghd_peak_filter"]}
{"id": "C287", "title": "The prediction for a change of the lag is the best one", "statement": "The coefficients with which the post filter continues its state at a change of the lag solve the normal equations of order 24 for the last quarter of a frame of output, or those of a smaller order if at most 10^-9 of the energy is left.", "quantifier": "for all outputs and lengths of frames", "why_tests_cant": "The recursion gives plausible filters for wrong recursions as well.", "anchors": ["decoder/ia_core_coder_ltpf.c:ia_core_coder_ltpf_get_lpc"]}
{"id": "C288", "title": "A new filter takes over without a jump", "statement": "When one post filter follows another, the deviation of the output from the new filter goes on as predicted from its last 24 values and is faded out within an eighth of a frame.", "quantifier": "for all streams, states, lags and gains", "why_tests_cant": "It takes two frames with different lags, and the deviation cannot be seen in the output.", "anchors": ["decoder/ia_core_coder_ltpf.c:ia_core_coder_ltpf_get_zir", "decoder/ia_core_coder_ltpf.c:ia_core_coder_usac_ltpf_process", "decoder/ia_core_coder_ltpf.c:ia_core_coder_ltpf_filter"]}
{"id": "C289", "title": "Objects are panned between the loudspeakers around them", "statement": "For an object without spread inside one of the triangles of loudspeakers, the panning gains are not negative, have energy one and, as weights of the loudspeaker positions, point to the object.", "quantifier": "for all loudspeaker positions, triangles and object positions", "why_tests_cant": "Listening to some positions does not show that the law holds for all triangles.", "anchors": ["decoder/impeghd_obj_ren_vbap.c:impeghd_calc_one_source_point", "decoder/impeghd_obj_ren_dec.c:impeghd_calc_inv_matrix"]}
{"id": "C290", "title": "The energy of an object does not depend on its place", "statement": "The energy of the gains of the loudspeakers is the squared gain of the object, or all of them are zero; an object without spread in one of the triangles has gains that are numbers.", "quantifier": "for all geometries, positions, spreads and gains", "why_tests_cant": "A missing normalisation is only heard as a change of loudness at some positions.", "anchors": ["decoder/impeghd_obj_ren_vbap.c:impegh_obj_ren_vbap_process", "decoder/impeghd_obj_ren_vbap.c:impeghd_nrm_values"]}
{"id": "C291", "title": "The spread of an object has three dimensions", "statement": "The gains of an object with a spread depend on its spread in height and depth as well as in width.", "quantifier": "for all spreads", "why_tests_cant": "Objects with a spread in width sound right.", "anchors": ["decoder/impeghd_obj_ren_vbap.c:impeghd_spreading_calc_mdap_vectors", "decoder/impeghd_obj_ren_vbap.c:impeghd_calc_spread_gains"]}
{"id": "C292", "title": "Gains of objects move on a line and arrive", "statement": "Within a sub-frame the gain of each loudspeaker moves on a line from the gain at the end of the sub-frame before to the new gain, which it reaches with the last sample; the first sub-frame of an object starts at its own gain; other samples and the LFE channels stay.", "quantifier": "for all objects, gains, lengths and memory contents", "why_tests_cant": "A jump of the gain by one step is not heard in most content.", "anchors": ["decoder/impeghd_obj_ren_dec.c:impeghd_obj_renderer_dec"]}
{"id": "C293", "title": "Metadata of objects hold until the next ones", "statement": "A sub-frame without new metadata of an object is rendered with the latest metadata of the object.", "quantifier": "for all sequences of frames with and without metadata", "why_tests_cant": "It takes frames in which only some sub-frames have metadata.", "anchors": ["decoder/impeghd_obj_ren_dec.c:impeghd_obj_renderer_dec", "decoder/ia_core_coder_decode_main.c:impeghd_obj_md_dec_ren_process"]}
{"id": "C294", "title": "Imaginary loudspeakers are mixed to their neighbours with energy one", "statement": "The downmix matrix keeps the sound of real loudspeakers where it is and spreads that of an imaginary one with energy one and gains that are not negative, equally over its neighbours if they are all real; it only depends on the loudspeakers.", "quantifier": "for all sets of proper triangles in which imaginary loudspeakers have neighbours", "why_tests_cant": "A matrix that loses energy is only heard for objects near imaginary loudspeakers, one that depends on earlier layouts only after a change of the layout.", "anchors": ["decoder/impeghd_obj_ren_dec.c:impeghd_remap_imag_spks"]}
{"id": "C295", "title": "Objects are heard", "statement": "An object with a gain that is not zero, at the place of a loudspeaker, gives a gain that is not zero to some loudspeaker.", "quantifier": "for all loudspeaker layouts", "why_tests_cant": "All layouts of the standard need imaginary loudspeakers.", "anchors": ["decoder/impeghd_obj_ren_dec.c:impeghd_obj_renderer_dec_init", "decoder/impeghd_obj_ren_vbap.c:impegh_obj_ren_vbap_process"]}
{"id": "C296", "title": "Loudspeakers are sorted by azimuth", "statement": "The sort of the loudspeakers keeps all of them and puts their azimuths in ascending order.", "quantifier": "for all lists", "why_tests_cant": "A sort that fails for equal or reversed keys passes for most layouts.", "anchors": ["decoder/impeghd_obj_ren_dec.c:impegh_quick_sort_azi"]}
{"id": "C297", "title": "Imaginary loudspeakers below and above", "statement": "An imaginary loudspeaker is put below if all are above -45 degrees and one above if all are below 45 degrees; loudspeakers are said to be high if one is above 21 degrees; the first corners of the polyhedron are a highest and a lowest loudspeaker.", "quantifier": "for all loudspeaker positions", "why_tests_cant": "Layouts at the limits are rare.", "anchors": ["decoder/impeghd_obj_ren_dec.c:impeghd_adjust_ele_azi_ind"]}
{"id": "C298", "title": "No gap of more than 160 degrees is left", "statement": "With the imaginary loudspeakers, there is a loudspeaker of the lower levels in every 160 degrees of azimuth; real loudspeakers come first, and there are at most 44.", "quantifier": "for all loudspeaker positions", "why_tests_cant": "It takes layouts with wide gaps at all places.", "anchors": ["decoder/impeghd_obj_ren_dec.c:impeghd_add_imaginary_ls"]}
{"id": "C299", "title": "Imaginary loudspeakers keep symmetry and stay away from real ones", "statement": "Imaginary loudspeakers of a symmetric layout are symmetric, and none is at the place of a real loudspeaker.", "quantifier": "for all loudspeaker positions", "why_tests_cant": "Layouts of the standard have no gap of more than 160 degrees in front.", "anchors": ["decoder/impeghd_obj_ren_dec.c:impeghd_add_imaginary_ls"]}
{"id": "C300", "title": "The first polyhedron encloses the listener in azimuth", "statement": "The first polyhedron has a highest and a lowest loudspeaker as corners and three of the lower levels: one, another one up to 160 degrees further and a third one at least 200 but less than 360 degrees further.", "quantifier": "for all layouts with a loudspeaker below 45 degrees", "why_tests_cant": "It takes layouts with gaps of all widths.", "anchors": ["decoder/impeghd_obj_ren_dec.c:impeghd_add_imaginary_ls"]}
{"id": "C301", "title": "Imaginary loudspeakers between four loudspeakers", "statement": "When there are loudspeakers for four nominal positions in front or at the back, two of them high, and no other one is in the quadrilateral of the four, exactly one imaginary loudspeaker is added for this side, and it lies within the quadrilateral; otherwise none is added for it.", "quantifier": "for all loudspeaker positions", "why_tests_cant": "Layouts of the standard are at the nominal positions.", "anchors": ["decoder/impeghd_obj_ren_dec.c:impeghd_ls_subset_exist", "decoder/impeghd_obj_ren_dec.c:impeghd_ls_subset_empty", "decoder/impeghd_obj_ren_dec.c:impeghd_add_imaginary_ls"]}
{"id": "C302", "title": "The positions of the loudspeakers that objects are panned to", "statement": "Every loudspeaker that is no LFE is taken once, in order, at its own direction, with an azimuth from -180 to below 180 degrees and an elevation from -90 to 90 degrees.", "quantifier": "for all positions with azimuths from -180 to below 540 degrees", "why_tests_cant": "Azimuths above 180 degrees are rare.", "anchors": ["decoder/impeghd_obj_ren_dec.c:impeghd_obj_renderer_dec_init"]}
{"id": "C303", "title": "Near field compensation of blocks", "statement": "Ambisonics channels that are compensated block by block come out as if the whole signal were compensated at once.", "quantifier": "for all filters, memories and cuts of a signal", "why_tests_cant": "Tests compare whole files of one frame length.", "anchors": ["decoder/impeghd_hoa_nfc_filtering.c:impeghd_hoa_ren_nfc_filter_apply", "decoder/impeghd_hoa_nfc_filtering.c:impeghd_hoa_ren_iir_ord_2_filter", "decoder/impeghd_hoa_nfc_filtering.c:impeghd_hoa_ren_iir_ord_1_filter"]}
{"id": "C304", "title": "Response of the near field compensation", "statement": "The compensation of an order has the response of the polynomial of its roots at the reference distance over the one at the distance of the loudspeakers, a constant is multiplied by the ratio of the distances to the power of the order, and equal distances change nothing.", "quantifier": "for all orders to 8, times, real growth factors and amplitudes", "why_tests_cant": "Measured responses have tolerances and sample a few distances.", "anchors": ["decoder/impeghd_hoa_nfc_filtering.c:impeghd_hoa_ren_nfc_set_filter_params", "decoder/impeghd_hoa_nfc_filtering.c:impeghd_hoa_ren_nfc_filter_apply"]}
{"id": "C305", "title": "Stability of the near field compensation", "statement": "Every cell of every compensation filter has its poles inside the unit circle.", "quantifier": "for all orders to 8 and all distances and rates", "why_tests_cant": "Instability may only show for long signals or extreme distances.", "anchors": ["decoder/impeghd_hoa_nfc_filtering.c:impeghd_hoa_ren_nfc_set_filter_params"]}
{"id": "C306", "title": "Near field compensation by order of the channel", "statement": "Ambisonics channel k is compensated with the filter of its own order, the root of k rounded down; channel 0 is not changed.", "quantifier": "for all orders of the content, channels and distances", "why_tests_cant": "Needs content with a reference distance beyond the loudspeakers.", "anchors": ["decoder/impeghd_hoa_renderer.c:impeghd_hoa_ren_nfc_init", "decoder/impeghd_hoa_nfc_filtering.c:impeghd_hoa_ren_nfc_set_filter_params"]}
{"id": "C307", "title": "Rendering of ambisonics to loudspeakers", "statement": "Every sample of a loudspeaker is its row of the matrix times the channels at the same time, compensated if compensation is used, clipped to 16 bits; blocks that do not fit the matrix are refused and no other memory is changed.", "quantifier": "for all matrices, blocks, filters and memory", "why_tests_cant": "Index errors may only show for some numbers of channels and loudspeakers.", "anchors": ["decoder/impeghd_hoa_renderer.c:impeghd_hoa_ren_block_process", "decoder/impeghd_hoa_renderer.c:impeghd_hoa_ren_preprocess_nfc"]}
{"id": "C308", "title": "Levels and near field compensation", "statement": "Compensation is used exactly if the reference distance is beyond the loudspeakers and the level allows it: order 2 at most at level 3, order 1 at most at level 2 of the low complexity profile, levels 1 to 3 of the baseline profile; otherwise content with such a distance is refused.", "quantifier": "for all distances, orders and levels", "why_tests_cant": "Combinations of level, order and distance are many.", "anchors": ["decoder/impeghd_hoa_dec_init.c:impeghd_hoa_ren_nfc_init"]}
{"id": "C309", "title": "Groups in a box of an MP4 file", "statement": "Every box of groups is read without undefined behaviour, and the id of the scene, the number of groups and the fields of every group are those of the box.", "quantifier": "for all boxes and earlier contents of the table", "why_tests_cant": "Boxes with more groups than the profile allows are not in test files.", "anchors": ["decoder/impeghd_mae_mp4_intrfc.c:impeghd_mp4_get_maeg"]}
{"id": "C310", "title": "Languages of groups in a box of an MP4 file", "statement": "A group with a language of three characters is read back, and so are the groups behind it.", "quantifier": "for all boxes with languages", "why_tests_cant": "Needs boxes with several groups, one with a language.", "anchors": ["decoder/impeghd_mae_mp4_intrfc.c:impeghd_mp4_get_maeg"]}
{"id": "C311", "title": "Members of groups of an MP4 file", "statement": "Different groups of a box have different elements.", "quantifier": "for all boxes", "why_tests_cant": "Test files have few groups.", "anchors": ["decoder/impeghd_mae_mp4_intrfc.c:impeghd_mp4_get_maeg"]}
{"id": "C312", "title": "Switch groups in a box of an MP4 file", "statement": "Every box of switch groups is read without undefined behaviour, and ids, members and default members are those of the box.", "quantifier": "for all boxes and earlier contents of the table", "why_tests_cant": "Boxes with more switch groups than the profile allows are not in test files.", "anchors": ["decoder/impeghd_mae_mp4_intrfc.c:impeghd_mp4_get_maes"]}
{"id": "C313", "title": "Presets in a box of an MP4 file", "statement": "Every box of presets is read without undefined behaviour, and ids, kinds and all conditions are those of the box.", "quantifier": "for all boxes and earlier contents of the table", "why_tests_cant": "Many conditions are not in test files.", "anchors": ["decoder/impeghd_mae_mp4_intrfc.c:impeghd_mp4_get_maep"]}
{"id": "C314", "title": "Descriptions in a box of an MP4 file", "statement": "Every box of descriptions is read without undefined behaviour, and the texts are those of the box.", "quantifier": "for all boxes and earlier lengths of texts", "why_tests_cant": "Texts have no effect on the sound, and 128 descriptions are not in test files.", "anchors": ["decoder/impeghd_mae_mp4_intrfc.c:impeghd_mp4_get_mael"]}
{"id": "C315", "title": "The triangle for an object", "statement": "For every direction, inside a triangle or not, the chosen triangle has the fewest clearly negative gains of all, and of those the highest lowest gain.", "quantifier": "for all inverse matrices of triangles and positions", "why_tests_cant": "Directions between triangles are hit by few test signals.", "anchors": ["decoder/impeghd_obj_ren_vbap.c:impeghd_calc_one_source_point"]}
{"id": "C316", "title": "The opening of a spread object", "statement": "An object with a width sounds from no direction that is further from it than its width (limited to 0.001 to 90 degrees), and from two directions, horizontally to its left and right, that are exactly that far away.", "quantifier": "for all objects with a radius that is not negative", "why_tests_cant": "The directions are internal; tests compare output of a few objects only.", "anchors": ["decoder/impeghd_obj_ren_vbap.c:impeghd_spreading_calc_mdap_vectors", "decoder/impeghd_obj_ren_vbap.c:impeghd_vector_process"]}
{"id": "C317", "title": "Spread sideways and upwards", "statement": "Without loudspeakers in height an object sounds only from directions in the plane through it and the horizontal direction at a right angle to it; with them also from directions above and below this plane. To every direction its mirror image belongs to the directions.", "quantifier": "for all objects", "why_tests_cant": "Asymmetries of single directions are small in the output.", "anchors": ["decoder/impeghd_obj_ren_vbap.c:impeghd_spreading_calc_mdap_vectors"]}
{"id": "C318", "title": "Very wide objects", "statement": "The gains of an object wider than 90 degrees are blended linearly between those of its directions and equal gains of all loudspeakers. From 180 degrees on all loudspeakers have the same gain, so that objects of the same gain sound alike wherever they are.", "quantifier": "for all loudspeaker setups and objects whose gains are numbers", "why_tests_cant": "Blending of every width cannot be enumerated.", "anchors": ["decoder/impeghd_obj_ren_vbap.c:impeghd_calc_spread_gains", "decoder/impeghd_obj_ren_vbap.c:impeghd_calc_vbap"]}
{"id": "C319", "title": "Rows of a signalled ambisonics matrix", "statement": "When as many satellites and LFEs are signalled as there are, the assignment of the rows of a rendering matrix from the bitstream to the local loudspeakers gives each of them exactly one row, signalled for a loudspeaker of its kind.", "quantifier": "for all positions of signalled and local loudspeakers", "why_tests_cant": "A greedy assignment can run out of loudspeakers only for rare positions.", "anchors": ["decoder/impeghd_hoa_renderer.c:impeghd_hoa_ren_permute_signaled_rendering_matrix", "decoder/impeghd_hoa_simple_mtrx.c:impeghd_hoa_ren_simple_mtrx_mult"]}
{"id": "C320", "title": "When a signalled ambisonics matrix is used", "statement": "A rendering matrix signalled for exactly the local loudspeakers is used as it is. A matrix is used, row by row, when every signalled loudspeaker has a nearest local one of its kind of its own within the tolerance (0.0874 radians for satellites); a matrix that is used was signalled for such positions.", "quantifier": "for all positions and matrices of at most 16 loudspeakers", "why_tests_cant": "Positions are continuous and assignments many.", "anchors": ["decoder/impeghd_hoa_renderer.c:impeghd_hoa_ren_validate_signaled_rendering_matrix", "decoder/impeghd_hoa_renderer.c:impeghd_hoa_ren_permute_signaled_rendering_matrix", "decoder/impeghd_hoa_dec_init.c:impeghd_hoa_ren_input_init", "decoder/impeghd_hoa_render_mtrx.c:impeghd_hoa_ren_mtrx_resort_spk_pos"]}
{"id": "C321", "title": "Room for signalled ambisonics matrices", "statement": "Rendering matrices signalled for any CICP layout are stored within the tables.", "quantifier": "for all CICP layouts", "why_tests_cant": "Test streams rarely carry a matrix for 22.2 channels, and the write beyond the table lands in the same structure.", "anchors": ["decoder/impeghd_hoa_render_mtrx.c:impeghd_hoa_ren_mtrx_init_with_mtrx_param", "decoder/impeghd_hoa_render_mtrx.c:impeghd_hoa_ren_mtrx_resort_spk_pos"]}
{"id": "C322", "title": "LFE channels of ambisonics", "statement": "With the rendering matrices that the decoder makes itself the LFE channels are silent and every other loudspeaker plays the row of its number among the satellites.", "quantifier": "for all layouts and matrices", "why_tests_cant": "Layouts of single loudspeakers with an LFE at any place are not enumerated.", "anchors": ["decoder/impeghd_hoa_renderer.c:impeghd_hoa_ren_permute_lfe_channel", "decoder/impeghd_hoa_renderer.c:impeghd_hoa_ren_get_loudspeaker_type"]}
{"id": "C323", "title": "Overlapping frames of the frequency domain", "statement": "When the samples kept are those of the right half of a frame whose window and symmetry go on in the next frame, the next frame writes exactly the block both frames cover and keeps what the frame after it needs, for long, start, stop, stop-start and eight short sequences.", "quantifier": "for all blocks, windows of which the squares add up to 1, shapes, and symmetries that do not change back to 0 at a short edge nor within eight short blocks", "why_tests_cant": "Aliasing that is not cancelled is hard to hear in test signals, and the sequences, shapes and symmetries multiply.", "anchors": ["decoder/ia_core_coder_imdct.c:ia_core_coder_fd_imdct_long", "decoder/ia_core_coder_imdct.c:ia_core_coder_fd_imdct_short", "decoder/ia_core_coder_basic_ops.c:ia_core_coder_windowing_long1", "decoder/ia_core_coder_basic_ops.c:ia_core_coder_windowing_long3", "decoder/ia_core_coder_basic_ops.c:ia_core_coder_windowing_short4"]}
{"id": "C324", "title": "Signals of frames of the frequency domain", "statement": "A signal that begins with a silent block comes out of the overlapping frames block for block, for every sequence of windows, shapes and symmetries that goes on from frame to frame.", "quantifier": "for all signals and all numbers of frames", "why_tests_cant": "A run of frames of any length cannot be tested for all sequences.", "anchors": ["decoder/ia_core_coder_imdct.c:ia_core_coder_fd_frm_dec", "decoder/ia_core_coder_windowing.c:ia_core_coder_calc_window"]}
{"id": "C325", "title": "Changes of symmetry at short edges", "statement": "A long block after a short edge cancels aliasing for all four kernel types.", "quantifier": "for all blocks, windows and symmetries", "why_tests_cant": "The kernel is switched rarely and hardly ever behind short blocks.", "anchors": ["decoder/ia_core_coder_basic_ops.c:ia_core_coder_windowing_long3", "decoder/ia_core_coder_imdct.c:ia_core_coder_fd_imdct_long"]}
{"id": "C326", "title": "Changes of symmetry in eight short blocks", "statement": "Eight short blocks in which the symmetry changes keep what a next frame of the new symmetry needs.", "quantifier": "for all signals: there is a spectrum that is decoded to it", "why_tests_cant": "Needs all spectra.", "anchors": ["decoder/ia_core_coder_basic_ops.c:ia_core_coder_windowing_short2", "decoder/ia_core_coder_basic_ops.c:ia_core_coder_windowing_short4", "decoder/ia_core_coder_imdct.c:ia_core_coder_fd_imdct_short"]}
{"id": "C327", "title": "The transform of a frame", "statement": "The modulation, the inverse Fourier transform and the second modulation together are the cosine transform of type four (kernel type 0) and the sine transform of type four (kernel type 3), divided by the number of values.", "quantifier": "for all spectra and numbers of values (a multiple of two, of four for the sine transform)", "why_tests_cant": "An error in one angle changes every sample a little.", "anchors": ["decoder/ia_core_coder_imdct.c:ia_core_coder_calc_pre_twid_dec", "decoder/ia_core_coder_imdct.c:ia_core_coder_calc_post_twid_dec", "decoder/ia_core_coder_imdct.c:ia_core_coder_acelp_imdct"]}
{"id": "C328", "title": "The inverse of the modified transforms", "statement": "The transform of a frame turns the modified cosine transform (kernel type 0) or the modified sine transform (kernel type 3) of a windowed block into the folded block.", "quantifier": "for all blocks and numbers of values", "why_tests_cant": "The factors and signs of the transform, the folding and the overlap must agree for every line.", "anchors": ["decoder/ia_core_coder_imdct.c:ia_core_coder_acelp_imdct", "decoder/ia_core_coder_imdct.c:ia_core_coder_fd_imdct_long"]}
{"id": "C329", "title": "From spectra to samples", "statement": "The modified cosine or sine transforms of the windowed blocks of a signal that begins with a silent block are decoded to the signal, for every sequence of windows and shapes that goes on from frame to frame.", "quantifier": "for all signals, numbers of frames, window sequences and shapes, and both symmetries", "why_tests_cant": "End to end over all signals.", "anchors": ["decoder/ia_core_coder_imdct.c:ia_core_coder_fd_frm_dec", "decoder/ia_core_coder_imdct.c:ia_core_coder_acelp_imdct", "decoder/ia_core_coder_windowing.c:ia_core_coder_calc_window"]}
{"id": "C330", "title": "The transform of a frame at which the symmetry changes", "statement": "For a long block the modulation, the inverse Fourier transform of half the size and the reordering together are the cosine transform of type three (kernel type 2) and the sine transform of type three (kernel type 1), divided by 1024.", "quantifier": "for all spectra of 1024 values", "why_tests_cant": "An error in one angle, or in the one entry that is written twice, changes every sample a little.", "anchors": ["decoder/ia_core_coder_imdct.c:ia_core_coder_calc_pre_twid_dec", "decoder/ia_core_coder_imdct.c:ia_core_coder_calc_post_twid_dec", "decoder/ia_core_coder_imdct.c:ia_core_coder_fft_based_imdct"]}
{"id": "C331", "title": "The transform of short blocks at which the symmetry changes", "statement": "For the 128 values of a short block kernel types 1 and 2 give the transforms of type three, too.", "quantifier": "for all spectra of 128 values", "why_tests_cant": "Test streams hardly ever switch the kernel at short blocks.", "anchors": ["decoder/ia_core_coder_imdct.c:ia_core_coder_fft_based_imdct", "decoder/ia_core_coder_rom.c:ia_core_coder_pre_twid_type2_dct_dst_cos_1024"]}
{"id": "C332", "title": "The inverse of the modified transforms of changing symmetry", "statement": "For a long block kernel type 2 turns the modified cosine transform with whole multiples of the base angle, and kernel type 1 the modified sine transform with whole multiples, into the folded block.", "quantifier": "for all blocks", "why_tests_cant": "The factors and signs of the transform, the folding and the overlap must agree for every line.", "anchors": ["decoder/ia_core_coder_imdct.c:ia_core_coder_acelp_imdct", "decoder/ia_core_coder_imdct.c:ia_core_coder_fd_imdct_long"]}
{"id": "C333", "title": "From spectra to samples with changing symmetries", "statement": "The modified transforms, chosen frame by frame by the symmetries of the frame and of the one before, of the windowed blocks of a signal that begins with a silent block are decoded to the signal, when the symmetry does not change at eight short blocks nor change back at a short left edge.", "quantifier": "for all signals, numbers of frames, window sequences, shapes and such symmetries", "why_tests_cant": "End to end over all signals and all sequences of symmetries.", "anchors": ["decoder/ia_core_coder_imdct.c:ia_core_coder_fd_frm_dec", "decoder/ia_core_coder_imdct.c:ia_core_coder_acelp_imdct", "decoder/ia_core_coder_windowing.c:ia_core_coder_calc_window"]}
{"id": "C334", "title": "Eight short blocks after a frame of the time domain", "statement": "When the aliasing cancellation signal (FAC) is what the aliasing of the first short block leaves open, a frame of eight short blocks after a frame of the time domain writes the block: what the frame of the time domain left, and then the samples of the signal; and it keeps what the next frame needs.", "quantifier": "for all signals, window shapes and FAC signals", "why_tests_cant": "The samples around the switch are a small part of a frame, and the bass post filter changes them afterwards.", "anchors": ["decoder/ia_core_coder_basic_ops.c:ia_core_coder_windowing_short1", "decoder/ia_core_coder_imdct.c:ia_core_coder_fd_imdct_short"]}
{"id": "C335", "title": "Long blocks after a frame of the time domain begin with what was kept", "statement": "The first half of a long block after a frame of the time domain with FAC is what the frame of the time domain left.", "quantifier": "for all signals and FAC signals", "why_tests_cant": "The buffer of the output often holds similar samples of an earlier frame.", "anchors": ["decoder/ia_core_coder_basic_ops.c:ia_core_coder_windowing_long2", "decoder/ia_core_coder_imdct.c:ia_core_coder_fd_imdct_long"]}
{"id": "C336", "title": "Aliasing cancellation of long blocks after a frame of the time domain", "statement": "When the FAC signal is what the aliasing leaves open, the second half of a long block after a frame of the time domain is the signal.", "quantifier": "for all signals and FAC signals", "why_tests_cant": "256 samples that are slightly wrong at a switch of the coder are hardly heard and are compared only for a few streams.", "anchors": ["decoder/ia_core_coder_basic_ops.c:ia_core_coder_windowing_long2", "decoder/ia_core_coder_imdct.c:ia_core_coder_fd_frm_dec"]}
{"id": "C337", "title": "What the bass post filter takes away", "statement": "Every sample that the bass post filter writes is the signal one subframe ago less the low-passed difference between the signal and its mean one pitch lag before and after, times half the gain, over the borders of subframes and frames; and exactly the frames with a pitch lag too long for the history are refused.", "quantifier": "for all signals, pitch lags, gains, low pass filters, numbers of subframes and differences kept from the frame before", "why_tests_cant": "The history crosses subframes and frames, and the lag is halved depending on the signal.", "anchors": ["decoder/ia_core_coder_lpc.c:ia_core_coder_bass_post_filter"]}
{"id": "C338", "title": "The bass post filter without gain", "statement": "When no gain is positive and nothing was kept from before, the bass post filter gives back the signal one subframe late, and keeps nothing.", "quantifier": "for all signals, pitch lags, low pass filters and numbers of subframes", "why_tests_cant": "A small rest of the filter is not heard and changes only with the signal.", "anchors": ["decoder/ia_core_coder_lpc.c:ia_core_coder_bass_post_filter"]}
{"id": "C339", "title": "The bass post filter does not change periodic signals", "statement": "When the signal repeats with the pitch lag and with half the pitch lag and nothing was kept from before, the bass post filter gives the signal back, whatever the gains are.", "quantifier": "for all such signals, gains, low pass filters and numbers of subframes", "why_tests_cant": "Only exactly periodic signals show an error of the lag.", "anchors": ["decoder/ia_core_coder_lpc.c:ia_core_coder_bass_post_filter"]}
{"id": "C340", "title": "Samples written ahead by the bass post filter", "statement": "The three samples that the bass post filter writes after the frame, for the long term post filter, are the ones that it writes first in the next frame.", "quantifier": "for all pairs of frames of which the second goes on where the first one ends", "why_tests_cant": "The samples ahead are only used by the filter of the frame after, and are wrong only for full band linear prediction.", "anchors": ["decoder/ia_core_coder_lpc.c:ia_core_coder_bass_post_filter"]}
{"id": "C341", "title": "The bass post filter after a frame of the time domain ends inside the frame", "statement": "When the bass post filter goes on into a frame of the frequency domain after a frame of the time domain, it changes nothing from 76 samples after the last subframe with a gain on, which is the seventh, eighth or ninth subframe, and keeps nothing for later frames.", "quantifier": "for all accepted frames, signals, pitch lags, gains, low pass filters and channels", "why_tests_cant": "What is left after the end is small and only there after certain pairs of frames.", "anchors": ["decoder/ia_core_coder_lpc.c:ia_core_coder_lpd_bpf", "decoder/ia_core_coder_lpc.c:ia_core_coder_lpd_bpf_calc_pitch_gain"]}
{"id": "C342", "title": "The bass post filter after a frame of the time domain without gain", "statement": "When the frame of the time domain before had no gains and nothing was kept, the frame of the frequency domain is not changed by the bass post filter.", "quantifier": "for all accepted frames, signals, pitch lags, low pass filters and channels", "why_tests_cant": "The frame is moved by a subframe and back; a wrong delay is seen only at the borders.", "anchors": ["decoder/ia_core_coder_lpc.c:ia_core_coder_lpd_bpf", "decoder/ia_core_coder_lpc.c:ia_core_coder_lpd_bpf_calc_pitch_gain"]}
{"id": "C343", "title": "The bass post filter after a frame of the time domain reads its own channel", "statement": "The bass post filter after a frame of the time domain reads only samples of the channel that it filters.", "quantifier": "for all channels, frames, signals, pitch lags, gains and low pass filters", "why_tests_cant": "Samples of the next channel are read without effect, and only the last channel reads behind the array.", "anchors": ["decoder/ia_core_coder_lpc.c:ia_core_coder_lpd_bpf"]}
{"id": "C344", "title": "What the bass post filter takes away after a frame of the time domain", "statement": "After a frame of the time domain the bass post filter works on the end of that frame followed by the frame of the frequency domain, with the pitch lags of that frame and the gains that predict the signal best from one lag ago, where that frame has a gain; and exactly the frames with a lag longer than the history are refused.", "quantifier": "for all signals, pitch lags, gains, low pass filters and all channels but the last", "why_tests_cant": "The gains and lags come from another frame and the signal from two frames; a shift by a subframe is not heard.", "anchors": ["decoder/ia_core_coder_lpc.c:ia_core_coder_lpd_bpf", "decoder/ia_core_coder_lpc.c:ia_core_coder_lpd_bpf_calc_pitch_gain"]}
{"id": "C345", "title": "Singular values are sorted", "statement": "The numbers by which the HOA renderer sorts singular values are a permutation of the numbers of the values, in whose order the values do not increase.", "quantifier": "for all numbers of values and all values, also equal ones", "why_tests_cant": "The exchanges depend on the order of all values.", "anchors": ["decoder/impeghd_hoa_simple_mtrx.c:impeghd_hoa_get_sort_idx"]}
{"id": "C346", "title": "The singular value decomposition of the HOA renderer", "statement": "When the decomposition of the matrix, turned if it is wider than high, is right, then the matrices U and V and the singular values that the HOA renderer works with are a decomposition of the matrix itself, with orthonormal columns and values that do not increase.", "quantifier": "for all numbers of rows and columns and all matrices", "why_tests_cant": "Exchanged matrices are seen only for matrices that are wider than high.", "anchors": ["decoder/impeghd_hoa_simple_mtrx.c:impeghd_hoa_ren_simple_mtrx_svd_init", "decoder/impeghd_hoa_simple_mtrx.c:impeghd_hoa_ren_simple_mtrx_swap_cols", "decoder/impeghd_hoa_simple_mtrx.c:impeghd_hoa_ren_simple_mtrx_transpose"]}
{"id": "C347", "title": "The decomposition of the HOA renderer fits into its arrays", "statement": "The decomposition of the rendering matrix is written inside of its arrays for all HOA orders up to 6 and up to 24 loudspeakers.", "quantifier": "for all orders and numbers of loudspeakers", "why_tests_cant": "Only high orders with many loudspeakers reach the end of the array.", "anchors": ["decoder/impeghd_hoa_simple_mtrx.c:impeghd_hoa_ren_simple_mtrx_svd_init"]}
{"id": "C348", "title": "The pseudo-inverse of the HOA renderer", "statement": "The pseudo-inverse treats singular values below the threshold times the largest one as 0 and inverts all others.", "quantifier": "for all matrices, decompositions and thresholds", "why_tests_cant": "Matrices with one large and other very small singular values are rare.", "anchors": ["decoder/impeghd_hoa_simple_mtrx.c:impeghd_hoa_ren_simple_mtrx_svd_pinv", "decoder/impeghd_hoa_simple_mtrx.c:impeghd_hoa_ren_simple_mtrx_transpose_keep"]}
{"id": "C349", "title": "Singular values that the HOA renderer drops", "statement": "The HOA renderer drops all singular vectors whose values are less than a thousandth of the largest one.", "quantifier": "for all singular values in descending order", "why_tests_cant": "Layouts with singular values around the limit are rare.", "anchors": ["decoder/impeghd_hoa_render_mtrx.c:impeghd_hoa_ren_mtrx_init"]}
{"id": "C350", "title": "The rendering matrix of the HOA renderer", "statement": "The rendering matrix is a positive multiple of V times U transposed, with the singular vectors that are kept and the weights of the coefficients, in which imaginary loudspeakers at the poles are spread over the loudspeakers of a plane; its squares sum up to 1 unless it is 0.", "quantifier": "for all decompositions, weights and numbers of loudspeakers, with and without poles", "why_tests_cant": "The matrix is made in several steps of which each changes the loudness.", "anchors": ["decoder/impeghd_hoa_render_mtrx.c:impeghd_hoa_ren_mtrx_init", "decoder/impeghd_hoa_simple_mtrx.c:impeghd_hoa_ren_simple_mtrx_diag_mult", "decoder/impeghd_hoa_simple_mtrx.c:impeghd_hoa_ren_simple_mtrx_norm_fro"]}
{"id": "C351", "title": "Conversions of loudspeaker positions in the HOA renderer", "statement": "Converting positions of loudspeakers between distance, inclination and azimuth on the one hand and x, y and z on the other gives the same points, with angles in their ranges; there and back gives the same numbers, except for points on the vertical axis, which have no azimuth.", "quantifier": "for all numbers of positions and all positions", "why_tests_cant": "Quadrants of the arctangent are exchanged only for some points.", "anchors": ["decoder/impeghd_hoa_space_positions.c:impeghd_hoa_ren_space_positions_convert_copy_to_cartesian", "decoder/impeghd_hoa_space_positions.c:impeghd_hoa_ren_space_positions_convert_copy_to_spherical", "decoder/impeghd_hoa_space_positions.c:impeghd_hoa_ren_space_positions_init_pos"]}
{"id": "C352", "title": "Positions for plane waves have the distance 1", "statement": "With the flag for plane waves, the conversion to x, y and z gives points at distance 1 in the same directions.", "quantifier": "for all positions of both types", "why_tests_cant": "The conversion with the flag needs positions that are given by x, y and z already.", "anchors": ["decoder/impeghd_hoa_space_positions.c:impeghd_hoa_ren_space_positions_convert_copy_to_cartesian"]}
{"id": "C353", "title": "Layouts in a plane", "statement": "A layout counts as plane when all loudspeakers are at most 7 degrees above or below the plane of the listener, and does not when one is higher or lower, up to a ten-thousandth of a degree; the type in which the positions are given does not matter.", "quantifier": "for all numbers of loudspeakers and all elevations", "why_tests_cant": "One loudspeaker anywhere in the list decides.", "anchors": ["decoder/impeghd_hoa_space_positions.c:impeghd_hoa_ren_space_positions_is_2d"]}
{"id": "C354", "title": "Poles added to a plane layout", "statement": "Adding poles to a layout keeps all positions and appends one straight above and one straight below the listener at the given distance, after which the layout does not count as plane.", "quantifier": "for all layouts, distances and both types of positions", "why_tests_cant": "The poles have different coordinates in both types.", "anchors": ["decoder/impeghd_hoa_space_positions.c:impeghd_hoa_ren_space_positions_add_poles"]}
{"id": "C355", "title": "Largest distance and inclinations of a layout", "statement": "The largest distance, the largest inclination and the smallest inclination that the HOA renderer finds are those of loudspeakers of the layout and bound those of all others, in whatever type the positions are given.", "quantifier": "for all layouts of at least one loudspeaker", "why_tests_cant": "The loudspeaker that decides may be anywhere in the list.", "anchors": ["decoder/impeghd_hoa_space_positions.c:impeghd_hoa_ren_space_positions_get_max_distance", "decoder/impeghd_hoa_space_positions.c:impeghd_hoa_ren_space_positions_get_max_min_inclination"]}
{"id": "C356", "title": "What loudspeakers make at the virtual microphones", "statement": "The matrices of robust panning hold, as real and imaginary parts, plane waves of the given frequency from the directions of the loudspeakers at 256 microphones on a sphere, whose radius grows with the root of the number of loudspeakers unless it is given.", "quantifier": "for all layouts, frequencies, radii and directions of microphones", "why_tests_cant": "Wrong phases change gains of all loudspeakers a little.", "anchors": ["decoder/impeghd_hoa_robust_pan.c:ia_render_hoa_robust_pan_init_with_spc_positions", "decoder/impeghd_hoa_robust_pan.c:ia_render_hoa_robust_pan_init"]}
{"id": "C357", "title": "Gains of robust panning", "statement": "The gains for a source are the real parts of complex gains that minimise the squares of the errors at the microphones plus the squares of the gains, weighted by how far the loudspeaker is from the source: not at all in the direction of the source, and by beta opposite of it.", "quantifier": "for all layouts, sources, frequencies and weights beta", "why_tests_cant": "Gains that are not the best ones are not seen from outside.", "anchors": ["decoder/impeghd_hoa_robust_pan.c:ia_render_hoa_robust_pan_calculate_gains_pre"]}
{"id": "C358", "title": "Normalised gains of robust panning", "statement": "With normalisation the gains for a source are not negative and their squares sum up to 1.", "quantifier": "for all gains of any number of loudspeakers", "why_tests_cant": "All gains have to be very small or negative for the division by 0.", "anchors": ["decoder/impeghd_hoa_robust_pan.c:ia_render_hoa_robust_pan_calculate_gains_pre"]}
{"id": "C359", "title": "Robust panning has a solution", "statement": "The matrices that are inverted for the gains of a source are invertible for all sources when no two loudspeakers are in the same direction.", "quantifier": "for all layouts, sources, frequencies, directions of microphones and weights beta above 0", "why_tests_cant": "Only some layouts together with some sources would give a singular matrix.", "anchors": ["decoder/impeghd_hoa_robust_pan.c:ia_render_hoa_robust_pan_calculate_gains_pre"]}
{"id": "C360", "title": "Matrices of robust panning are set up apart from each other", "statement": "Setting up a matrix of robust panning writes into that matrix only, and after all have been set up every one has its size and zeros or the transposed matrix in it.", "quantifier": "for up to 24 loudspeakers and all former contents of the memory", "why_tests_cant": "What is overwritten is overwritten again as long as the order of the calls is that of the addresses.", "anchors": ["decoder/impeghd_hoa_robust_pan.c:ia_render_hoa_robust_pan_calculate_gains_pre", "decoder/impeghd_hoa_simple_mtrx.c:impeghd_hoa_ren_simple_mtrx_init_with_size", "decoder/impeghd_hoa_simple_mtrx.c:impeghd_hoa_ren_simple_mtrx_transpose_keep"]}
{"id": "C361", "title": "Loudspeakers are sorted by their index in place", "statement": "Sorting by index leaves the same loudspeakers in the order of their indices, and writes neither outside of the given elements of the buffer nor outside of as many elements of the scratch buffer; the recursion is not deeper than there are elements.", "quantifier": "for every number of elements from 1 on and all contents of the buffers", "why_tests_cant": "Orders of up to 24 loudspeakers with equal and different indices are too many, and stray writes into the scratch buffer are not seen.", "anchors": ["decoder/impeghd_obj_ren_dec.c:impegh_quick_sort_idx"]}
{"id": "C362", "title": "Edges of the visible triangles of the loudspeaker hull", "statement": "The edges found for a vertex of the hull are those that belong to exactly one of the visible triangles, each once.", "quantifier": "for all triangles that the arrays of triangles can hold", "why_tests_cant": "Sets of triangles with shared and unshared edges are too many, and a write behind the array of edges goes into the next array.", "anchors": ["decoder/impeghd_obj_ren_dec.c:impeghd_extract_unique_edges"]}
{"id": "C363", "title": "The loudspeaker hull stays closed", "statement": "The first triangles are a surface on which every side belongs to two triangles. When a vertex is added to such a surface, the triangles have different corners, every side belongs to an even number of triangles, and to none or two if it does not end in the vertex.", "quantifier": "for all surfaces, vertices and results of the projection for which triangles at the vertex itself are visible, as long as the arrays hold the triangles", "why_tests_cant": "A hole in the hull shows only for objects in directions of that hole.", "anchors": ["decoder/impeghd_obj_ren_dec.c:impeghd_obj_renderer_dec_init", "decoder/impeghd_obj_ren_dec.c:impeghd_extract_unique_edges"]}
{"id": "C364", "title": "Projections on the normals of loudspeaker triangles", "statement": "The projection of a point is its height over the triangle, positive on one side and negative on the other. It is 0 for the corners and for triangles without area, and changes its sign when the triangle is turned.", "quantifier": "for all points of space", "why_tests_cant": "Points are a continuum; a wrong sign of one coordinate shows for some directions only.", "anchors": ["decoder/impeghd_3d_vec_basic_ops.c:impeghd_get_vx_proj_len"]}
{"id": "C365", "title": "Vertices are added to the loudspeaker hull", "statement": "When a vertex is added to a surface of which no triangle has the origin in front, the triangles are closed again, none has the origin in front, and none has the added vertex in front. The arrays are large enough for up to 14 triangles.", "quantifier": "for all positions of loudspeakers, surfaces and vertices", "why_tests_cant": "Positions are a continuum, and layouts with flat sides need other triangles than those without.", "anchors": ["decoder/impeghd_obj_ren_dec.c:impeghd_obj_renderer_dec_init", "decoder/impeghd_3d_vec_basic_ops.c:impeghd_get_vx_proj_len"]}
