{
 "claims": [
  {
   "property": "C01",
   "status": "proved",
   "theorems": [
    "Verif.C01_read_exact",
    "Verif.C01_consecutive_slices"
   ],
   "note": "pointer code refined to the list of bits"
  },
  {
   "property": "C02",
   "status": "proved",
   "theorems": [
    "Verif.C02_histories",
    "Verif.C02_never_outside"
   ],
   "note": "trace refinement over all request histories"
  },
  {
   "property": "C03",
   "status": "proved",
   "theorems": [
    "Verif.C03_peek_read",
    "Verif.C03_skip_read",
    "Verif.C03_skip_add"
   ],
   "note": ""
  },
  {
   "property": "C04",
   "status": "proved",
   "theorems": [
    "Verif.C04_write_seq",
    "Verif.C04_round_trip"
   ],
   "note": ""
  },
  {
   "property": "C05",
   "status": "proved",
   "theorems": [
    "Verif.C05_writer_fields",
    "Verif.C05_reader",
    "Verif.C05_round_trip"
   ],
   "note": ""
  },
  {
   "property": "C06",
   "status": "partial",
   "theorems": [
    "Verif.C06_read32_via_read_refuted",
    "Verif.C06_read32_unaligned_refuted",
    "Verif.C06_read32_aligned_partial"
   ],
   "note": "refuted: the general reader shifts by a negative count for 32 bits, the dedicated reader is only exact on byte boundaries (C06_read32_aligned_partial)"
  },
  {
   "property": "C07",
   "status": "proved",
   "theorems": [
    "Verif.C07_position_independent",
    "Verif.C07_refinement"
   ],
   "note": ""
  },
  {
   "property": "C08",
   "status": "proved",
   "theorems": [
    "Verif.Mhas.C08_progress",
    "Verif.Mhas.C08_terminates",
    "Verif.Mhas.C08_returns"
   ],
   "note": "loop bounded by bits/16; cut-off turns do not exist"
  },
  {
   "property": "C09",
   "status": "proved",
   "theorems": [
    "Verif.Mhas.C09_unhandled_skipped"
   ],
   "note": "labels up to 257; larger labels are C11"
  },
  {
   "property": "C10",
   "status": "proved",
   "theorems": [
    "Verif.Mhas.C10_sync"
   ],
   "note": ""
  },
  {
   "property": "C11",
   "status": "partial",
   "theorems": [
    "Verif.Mhas.C11_refuted",
    "Verif.Mhas.C11_labels_partial"
   ],
   "note": "refuted: a 32-bit label escape is undefined behaviour at every alignment; labels up to 257 are proved"
  },
  {
   "property": "C12",
   "status": "proved",
   "theorems": [
    "Verif.Asi.C12_tables"
   ],
   "note": ""
  },
  {
   "property": "C13",
   "status": "proved",
   "theorems": [
    "Verif.Asi.C13_unique"
   ],
   "note": ""
  },
  {
   "property": "C14",
   "status": "partial",
   "theorems": [
    "Verif.Asi.C14_partial",
    "Verif.Asi.C14_refuted"
   ],
   "note": "refuted for 128 members (8-bit wrap to -128, list left in the stream); proved for 1..127"
  },
  {
   "property": "C15",
   "status": "proved",
   "theorems": [
    "Verif.Asi.C15_accepted",
    "Verif.Asi.C15_repeat_rejected"
   ],
   "note": ""
  },
  {
   "property": "C16",
   "status": "proved",
   "theorems": [
    "Verif.Asi.C16_unknown_skipped"
   ],
   "note": ""
  },
  {
   "property": "C17",
   "status": "partial",
   "theorems": [
    "Verif.Mhas.C17_earcon_tables_partial",
    "Verif.Mhas.C17_refuted"
   ],
   "note": "refuted for the announced count 16 (17 entries stored); proved for all other counts"
  },
  {
   "property": "C18",
   "status": "partial",
   "theorems": [
    "Verif.Mhas.C18_config_safe",
    "Verif.Mhas.C18_frame_size_partial",
    "Verif.Mhas.C18_refuted_lookup",
    "Verif.Mhas.C18_refuted_samples"
   ],
   "note": "refuted: explicit sizes index the table, sizes 2048/4096 overrun the sample table; proved for 768 and 1024"
  },
  {
   "property": "C19",
   "status": "proved",
   "theorems": [
    "Verif.Mhas.C19_sample16",
    "Verif.Mhas.C19_sample24",
    "Verif.Mhas.C19_sample32"
   ],
   "note": ""
  },
  {
   "property": "C20",
   "status": "proved",
   "theorems": [
    "Verif.Api.C20_no_leak",
    "Verif.Api.C20_delete_all"
   ],
   "note": ""
  },
  {
   "property": "C21",
   "status": "partial",
   "theorems": [
    "Verif.Api.C21_refuted",
    "Verif.Api.C21_failed_partial"
   ],
   "note": "refuted: delete does not clear the count, the second call frees every block again; harmless only if nothing was allocated"
  },
  {
   "property": "C22",
   "status": "partial",
   "theorems": [
    "Verif.Api.C22_refuted",
    "Verif.Api.C22_reports_partial"
   ],
   "note": "refuted: create overwrites the error of the configuration step, its result does not depend on the configuration; the step itself reports all too large values"
  },
  {
   "property": "C23",
   "status": "partial",
   "theorems": [
    "Verif.Api.C23_refuted",
    "Verif.Api.C23_in_range_partial",
    "Verif.Api.C23_upper_partial",
    "Verif.Api.C23_takes_effect"
   ],
   "note": "refuted for negative layout indices and presets below -1; proved for all other requests"
  },
  {
   "property": "C24",
   "status": "partial",
   "theorems": [
    "Verif.Api.C24_refuted",
    "Verif.Api.C24_ratio_partial"
   ],
   "note": "refuted for stream rates that are not listed; proved for the eight listed rates and all output rates"
  },
  {
   "property": "C25",
   "status": "partial",
   "theorems": [
    "Verif.Api.C25_refuted_empty",
    "Verif.Api.C25_refuted_stale",
    "Verif.Api.C25_progress_partial",
    "Verif.Api.C25_terminates_partial"
   ],
   "note": "refuted for empty input and for returns before the bit buffer is set up; proved otherwise"
  },
  {
   "property": "C26",
   "status": "proved",
   "theorems": [
    "Verif.Api.C26_refused",
    "Verif.Api.C26_no_side_effects"
   ],
   "note": ""
  },
  {
   "property": "C27",
   "status": "proved",
   "theorems": [
    "Verif.Pcm.C27_sample16",
    "Verif.Pcm.C27_sample24",
    "Verif.Pcm.C27_frame"
   ],
   "note": "samples are rationals, which is exact for finite floats here; the channel map is a permutation"
  },
  {
   "property": "C28",
   "status": "partial",
   "theorems": [
    "Verif.Pcm.C28_refuted",
    "Verif.Pcm.C28_sample32_partial"
   ],
   "note": "refuted: every sample at or above full scale is clipped to 2^31, which does not convert; proved below full scale"
  },
  {
   "property": "C29",
   "status": "proved",
   "theorems": [
    "Verif.Pcm.C29_trim"
   ],
   "note": "16 and 24 bit output"
  },
  {
   "property": "C30",
   "status": "proved",
   "theorems": [
    "Verif.Preroll.C30_preroll_safe",
    "Verif.Preroll.C30_preroll_runC",
    "Verif.Preroll.C30_unit",
    "Verif.Preroll.C30_unit_too_long"
   ],
   "note": ""
  },
  {
   "property": "C31",
   "status": "proved",
   "theorems": [
    "Verif.Arith.C31_interval",
    "Verif.Arith.C31_interval_runC"
   ],
   "note": ""
  },
  {
   "property": "C32",
   "status": "partial",
   "theorems": [
    "Verif.Arith.C32_decode_encode_partial",
    "Verif.Arith.C32_refuted"
   ],
   "note": "refuted: a code word that ends with the input can be rejected (padding value 0 is taken for exhausted input); proved when at least 15 bits follow"
  },
  {
   "property": "C33",
   "status": "proved",
   "theorems": [
    "Verif.Arith.C33_terminates",
    "Verif.Arith.C33_counter_irrelevant"
   ],
   "note": "inputs up to 2^23 bits, which bounds the 32-bit bit counter; the loop counter of the model is shown to be irrelevant"
  },
  {
   "property": "C34",
   "status": "proved",
   "theorems": [
    "Verif.Arith.C34_getPk"
   ],
   "note": ""
  },
  {
   "property": "C35",
   "status": "proved",
   "theorems": [
    "Verif.Ops.C35_add",
    "Verif.Ops.C35_add3",
    "Verif.Ops.C35_sub",
    "Verif.Ops.C35_negate",
    "Verif.Ops.C35_abs",
    "Verif.Ops.C35_shl",
    "Verif.Ops.C35_mul"
   ],
   "note": ""
  },
  {
   "property": "C36",
   "status": "proved",
   "theorems": [
    "Verif.Ops.C36_norm"
   ],
   "note": ""
  },
  {
   "property": "C37",
   "status": "proved",
   "theorems": [
    "Verif.Ops.C37_sqrt",
    "Verif.Ops.C37_range_needed"
   ],
   "note": ""
  },
  {
   "property": "C38",
   "status": "partial",
   "theorems": [
    "Verif.Ops.C38_add",
    "Verif.Ops.C38_mult",
    "Verif.Ops.C38_sat32",
    "Verif.Ops.C38_sub_partial",
    "Verif.Ops.C38_sub_refuted",
    "Verif.Ops.C38_sub_always"
   ],
   "note": "add, multiply and 64-to-32 proved; refuted for subtraction (overflows, undefined, whenever saturation would be needed)"
  },
  {
   "property": "C39",
   "status": "partial",
   "theorems": [
    "Verif.Oam.C39_ranges_partial",
    "Verif.Oam.C39_refuted"
   ],
   "note": "refuted: only the entries of the first sub-frame are limited; proved for frames with one sub-frame"
  },
  {
   "property": "C40",
   "status": "partial",
   "theorems": [
    "Verif.Oam.C40_no_overflow_partial",
    "Verif.Oam.C40_refuted",
    "Verif.Oam.C40_counter_refuted"
   ],
   "note": "refuted: the sample counter overflows after 2097152 frames, an azimuth after 8421505; proved for streams of up to 2000000 frames"
  },
  {
   "property": "C41",
   "status": "partial",
   "theorems": [
    "Verif.EnhOam.C41_keep_partial",
    "Verif.EnhOam.C41_refuted"
   ],
   "note": "refuted: the flag use_predefined_sector is not kept; proved for everything else"
  },
  {
   "property": "C42",
   "status": "proved",
   "theorems": [
    "Verif.Limiter.C42_threshold"
   ],
   "note": "For every rounding of the arithmetic; channel count fixed over the run."
  },
  {
   "property": "C43",
   "status": "proved",
   "theorems": [
    "Verif.Limiter.C43_level"
   ],
   "note": "For every rounding of the arithmetic; channel count fixed over the run."
  },
  {
   "property": "C44",
   "status": "proved",
   "theorems": [
    "Verif.Limiter.C44_framing",
    "Verif.Limiter.C44_split",
    "Verif.Limiter.C44_transparent"
   ],
   "note": "Roundings are assumed to keep 0, 1 and the samples themselves."
  },
  {
   "property": "C45",
   "status": "proved",
   "theorems": [
    "Verif.Mct.C45_pairs"
   ],
   "note": "For 2 to 5000 channels (more than 24 bits cannot be read)."
  },
  {
   "property": "C46",
   "status": "proved",
   "theorems": [
    "Verif.Huff.C46_codeword",
    "Verif.Huff.C46_update_value",
    "Verif.Huff.C46_codeword_total",
    "Verif.Huff.C46_update_value_total",
    "Verif.Huff.C46_scl",
    "Verif.Huff.C46_drc",
    "Verif.Huff.C46_mc",
    "Verif.Huff.C46_mc_tables"
   ],
   "note": "For every length-ordered prefix-free table, and for the tables of the code, which are shown to be such and complete.  The multichannel tables are not ordered; their decoder needs as many bits left as the longest codeword has."
  },
  {
   "property": "C47",
   "status": "partial",
   "theorems": [
    "Verif.Interact.C47_refuted",
    "Verif.Interact.C47_second_refuted",
    "Verif.Interact.C47_second_no_error",
    "Verif.Interact.C47_first_partial"
   ],
   "note": "refuted: the error of the inner function is dropped, and after one known identifier any other is accepted.  Proved: when the inner function reports no error the first identifier is known."
  },
  {
   "property": "C48",
   "status": "partial",
   "theorems": [
    "Verif.Displace.C48_refuted",
    "Verif.Displace.C48_distance_refuted",
    "Verif.Displace.C48_rotation_partial"
   ],
   "note": "refuted: the object position is never read.  Proved over the reals: the matrix is a rotation, so the result is at twice the distance in the displacement data."
  },
  {
   "property": "C49",
   "status": "proved",
   "theorems": [
    "Verif.Huff.C49_time_code"
   ],
   "note": "For every table that fits its array (see C66)."
  },
  {
   "property": "C50",
   "status": "partial",
   "theorems": [
    "Verif.Preroll.C50_change_partial",
    "Verif.Preroll.C50_sequence_partial",
    "Verif.Preroll.C50_refuted_long",
    "Verif.Preroll.C50_refuted_empty"
   ],
   "note": "refuted for packets above 768 bytes (overrun) and after an empty configuration; proved otherwise"
  },
  {
   "property": "C51",
   "status": "proved",
   "theorems": [
    "Verif.Asi.C51_switch_round_trip"
   ],
   "note": ""
  },
  {
   "property": "C52",
   "status": "partial",
   "theorems": [
    "Verif.Asi.C52_preset_round_trip_partial",
    "Verif.Asi.C52_refuted"
   ],
   "note": "refuted: the permission looked up is that of the group at the preset's own table position; round trip proved under that permission"
  },
  {
   "property": "C53",
   "status": "partial",
   "theorems": [
    "Verif.Asi.C53_declared_length_partial",
    "Verif.Asi.C53_refuted"
   ],
   "note": "refuted for L >= 32768 (16-bit wrap) and for contents longer than declared; proved otherwise"
  },
  {
   "property": "C54",
   "status": "partial",
   "theorems": [
    "Verif.Api.C54_refuted",
    "Verif.Api.C54_create_writes_partial"
   ],
   "note": "refuted for an allocator granting exactly the size asked for; proved if it grants size + alignment bytes"
  },
  {
   "property": "C55",
   "status": "partial",
   "theorems": [
    "Verif.Preroll.C55_last_unit_partial",
    "Verif.Preroll.C55_refuted"
   ],
   "note": "refuted for outputs of different sizes; proved for equal sizes"
  },
  {
   "property": "C56",
   "status": "partial",
   "theorems": [
    "Verif.Preroll.C56_preroll_change_partial",
    "Verif.Preroll.C56_sequence_partial",
    "Verif.Preroll.C56_refuted"
   ],
   "note": "refuted: zero padding hides a difference in length; proved for equal lengths"
  },
  {
   "property": "C57",
   "status": "partial",
   "theorems": [
    "Verif.Arith.C57_no_ub_partial",
    "Verif.Arith.C57_refuted"
   ],
   "note": "refuted: a+b+1 overflows after 30 escapes; proved when no tuple has more than 28 escapes"
  },
  {
   "property": "C58",
   "status": "partial",
   "theorems": [
    "Verif.Arith.C58_signs_partial",
    "Verif.Arith.C58_refuted"
   ],
   "note": "refuted for magnitudes from 2^30 on; proved below"
  },
  {
   "property": "C59",
   "status": "proved",
   "theorems": [
    "Verif.Oam.C59_arrays",
    "Verif.EnhOam.C59_enhanced"
   ],
   "note": ""
  },
  {
   "property": "C60",
   "status": "partial",
   "theorems": [
    "Verif.EnhOam.C60_recent_partial",
    "Verif.EnhOam.C60_slots_partial",
    "Verif.EnhOam.C60_refuted"
   ],
   "note": "refuted when the first sub-frame of a frame has no metadata; proved otherwise"
  },
  {
   "property": "C61",
   "status": "partial",
   "theorems": [
    "Verif.Oam.C61_differences_partial",
    "Verif.Oam.C61_refuted"
   ],
   "note": "refuted with several sub-frames per frame; proved for one, uniform spread, no dynamic priority"
  },
  {
   "property": "C62",
   "status": "partial",
   "theorems": [
    "Verif.EnhOam.C62_sector_partial",
    "Verif.EnhOam.C62_refuted"
   ],
   "note": "refuted for the macros of the Windows headers; proved where fmin and fmax are functions"
  },
  {
   "property": "C63",
   "status": "partial",
   "theorems": [
    "Verif.Oam.C63_intra_one",
    "Verif.Oam.C63_absolute_partial",
    "Verif.Oam.C63_refuted"
   ],
   "note": "intra coding proved; refuted for absolutely coded dynamic data with three spread values or dynamic priority, proved without these"
  },
  {
   "property": "C64",
   "status": "partial",
   "theorems": [
    "Verif.Oam.C64_intra_many_partial",
    "Verif.Oam.C64_refuted"
   ],
   "note": "refuted for a fixed uniform spread outside the first sub-frame; proved otherwise (uniform spread)"
  },
  {
   "property": "C65",
   "status": "proved",
   "theorems": [
    "Verif.Limiter.C65_no_amplify"
   ],
   "note": "Exact (rational) arithmetic: rounding of the float operations is not covered."
  },
  {
   "property": "C66",
   "status": "partial",
   "theorems": [
    "Verif.Huff.C66_refuted",
    "Verif.Huff.C66_partial",
    "Verif.Huff.C66_refused_partial",
    "Verif.Huff.C66_accepted_partial"
   ],
   "note": "refuted: at rates of 1000 to 2999 Hz the table needs 1025 entries and the array has 526.  Proved for all higher rates; lower ones are rejected."
  },
  {
   "property": "C67",
   "status": "proved",
   "theorems": [
    "Verif.Mct.C67_parse_safe"
   ],
   "note": "Coefficient sums are unbounded integers."
  },
  {
   "property": "C68",
   "status": "partial",
   "theorems": [
    "Verif.Mct.C68_refuted",
    "Verif.Mct.C68_angles_partial"
   ],
   "note": "refuted: a payload that ends inside a codeword decodes as -1, and the index 0 of the previous frame becomes -1, read before the tables.  Proved for frames that leave 11 bits unread."
  },
  {
   "property": "C69",
   "status": "proved",
   "theorems": [
    "Verif.Mct.C69_energy",
    "Verif.Mct.C69_total"
   ],
   "note": "Exact rational arithmetic: rounding of single precision floats is not modelled."
  },
  {
   "property": "C70",
   "status": "partial",
   "theorems": [
    "Verif.Mct.C70_refuted",
    "Verif.Mct.C70_even_fails",
    "Verif.Mct.C70_rotation_partial",
    "Verif.Mct.C70_full_band_partial"
   ],
   "note": "refuted: with coefficients per band and an even number of scale factor bands the computation always ends in an error.  Proved for odd numbers and for one coefficient for the whole spectrum."
  },
  {
   "property": "C71",
   "status": "partial",
   "theorems": [
    "Verif.Mct.C71_refuted",
    "Verif.Mct.C71_single_partial"
   ],
   "note": "refuted for two signal groups: spectra are kept by index in the group but used by channel.  Proved for a single group beginning at channel 0."
  },
  {
   "property": "C72",
   "status": "proved",
   "theorems": [
    "Verif.Speaker.C72_layouts",
    "Verif.Speaker.C72_rejects"
   ],
   "note": "The quantifier is the finite table."
  },
  {
   "property": "C73",
   "status": "partial",
   "theorems": [
    "Verif.Speaker.C73_refuted",
    "Verif.Speaker.C73_wild_read",
    "Verif.Speaker.C73_overrun",
    "Verif.Speaker.C73_bad_layout",
    "Verif.Speaker.C73_layout_partial",
    "Verif.Speaker.C73_too_many_partial"
   ],
   "note": "refuted for lists of loudspeakers and for layouts without geometry.  Proved for named layouts."
  },
  {
   "property": "C74",
   "status": "proved",
   "theorems": [
    "Verif.Speaker.C74_flex_safe"
   ],
   "note": ""
  },
  {
   "property": "C75",
   "status": "partial",
   "theorems": [
    "Verif.Speaker.C75_refuted",
    "Verif.Speaker.C75_ends_partial"
   ],
   "note": "refuted: with azimuth 180 the direction bit is read or not depending on the old direction.  Proved when the old direction is not 1."
  },
  {
   "property": "C76",
   "status": "partial",
   "theorems": [
    "Verif.Speaker.C76_refuted",
    "Verif.Speaker.C76_angles_partial"
   ],
   "note": "refuted: the error for an azimuth out of range is dropped by the caller.  Proved for descriptions without error."
  },
  {
   "property": "C77",
   "status": "partial",
   "theorems": [
    "Verif.Speaker.C77_refuted",
    "Verif.Speaker.C77_pair_partial"
   ],
   "note": "refuted: the signed angle is copied unchanged.  Proved: elevation, class and LFE flag agree and the direction is flipped."
  },
  {
   "property": "C78",
   "status": "partial",
   "theorems": [
    "Verif.Interact.C78_refuted",
    "Verif.Interact.C78_inside_partial"
   ],
   "note": "refuted: nine groups read nine of eight presets.  Proved for up to eight groups or no scene."
  },
  {
   "property": "C79",
   "status": "partial",
   "theorems": [
    "Verif.Interact.C79_zoom_refuted",
    "Verif.Interact.C79_wire_refuted",
    "Verif.Interact.C79_kept_partial"
   ],
   "note": "refuted: WIRE identifiers and zoom fields are cut to 8 bits.  Proved for values below 256 without scene and signature."
  },
  {
   "property": "C80",
   "status": "partial",
   "theorems": [
    "Verif.Interact.C80_refuted",
    "Verif.Interact.C80_inside_partial",
    "Verif.Interact.C80_wires_partial"
   ],
   "note": "refuted: the 16-bit count is not checked.  Proved for up to 24 loudspeakers, apart from the undefined behaviour of the speaker configuration (C73)."
  },
  {
   "property": "C81",
   "status": "partial",
   "theorems": [
    "Verif.Interact.C81_ranges",
    "Verif.Interact.C81_distance",
    "Verif.Interact.C81_distance_zero",
    "Verif.Interact.C81_gain_refuted"
   ],
   "note": "refuted: gains are read with one bit, so only -32 and -31.5 dB can be sent.  The ranges are proved for up to 24 loudspeakers."
  },
  {
   "property": "C82",
   "status": "partial",
   "theorems": [
    "Verif.Displace.C82_refuted",
    "Verif.Displace.C82_elevation_refuted",
    "Verif.Displace.C82_radius_partial"
   ],
   "note": "refuted: azimuth is not written and elevation is overwritten with it.  Proved over the reals: the distance is recovered."
  },
  {
   "property": "C83",
   "status": "partial",
   "theorems": [
    "Verif.Displace.C83_refuted",
    "Verif.Displace.C83_all_moved",
    "Verif.Displace.C83_range_partial"
   ],
   "note": "refuted: every object moves to one place.  Proved over the reals: the angles stay in range."
  },
  {
   "property": "C84",
   "status": "proved",
   "theorems": [
    "Verif.Config.C84_accepted"
   ],
   "note": "HOA configuration, HOA matrix and audio scene parsers are arbitrary programs."
  },
  {
   "property": "C85",
   "status": "partial",
   "theorems": [
    "Verif.Config.C85_refuted",
    "Verif.Config.C85_declared_partial"
   ],
   "note": "refuted: a compatible level elsewhere in the payload replaces the declared one, so a level 1 stream with 6 objects is accepted; holds without a list of compatible levels"
  },
  {
   "property": "C86",
   "status": "partial",
   "theorems": [
    "Verif.Config.C86_refuted",
    "Verif.Config.C86_fresh_partial"
   ],
   "note": "refuted: after audio scene information the structure is not cleared, and a stale compatible level is used; holds when no scene information was read before"
  },
  {
   "property": "C87",
   "status": "partial",
   "theorems": [
    "Verif.Config.C87_refuted",
    "Verif.Config.C87_never",
    "Verif.Config.C87_clear_partial"
   ],
   "note": "refuted: the flag is never set at the end; it is clear for every accepted configuration"
  },
  {
   "property": "C88",
   "status": "proved",
   "theorems": [
    "Verif.Config.C88_element_length",
    "Verif.Config.C88_too_long",
    "Verif.Config.C88_payload"
   ],
   "note": ""
  },
  {
   "property": "C89",
   "status": "partial",
   "theorems": [
    "Verif.Config.C89_refuted",
    "Verif.Config.C89_length_partial"
   ],
   "note": "refuted: extensions that need more bits than announced are accepted; holds for the types whose length is used"
  },
  {
   "property": "C90",
   "status": "partial",
   "theorems": [
    "Verif.Config.C90_refuted",
    "Verif.Config.C90_preroll_partial"
   ],
   "note": "refuted for dynamic range elements: the counter is a local variable set to 0 on entry; holds for pre-roll because it must be the first element"
  },
  {
   "property": "C91",
   "status": "partial",
   "theorems": [
    "Verif.Config.C91_refuted",
    "Verif.Config.C91_entries_partial"
   ],
   "note": "refuted: the loop reads one entry more than there are groups; the entries themselves are read right"
  },
  {
   "property": "C92",
   "status": "partial",
   "theorems": [
    "Verif.Config.C92_refuted",
    "Verif.Config.C92_known_partial"
   ],
   "note": "refuted: the check uses the switch groups of the scene before; holds when that scene had switch groups"
  },
  {
   "property": "C93",
   "status": "partial",
   "theorems": [
    "Verif.Config.C93_refuted",
    "Verif.Config.C93_read_partial",
    "Verif.Config.C93_accepted"
   ],
   "note": "refuted: 2056 bits of matrix overflow 256 bytes; round trip for matrices up to 2048 bits; identifiers and layouts of every accepted configuration are within their ranges"
  },
  {
   "property": "C94",
   "status": "partial",
   "theorems": [
    "Verif.Config.C94_refuted",
    "Verif.Config.C94_refuted_config",
    "Verif.Config.C94_read_partial"
   ],
   "note": "refuted: flags of 25 objects are written to an array of 24, for whole configurations too; round trip up to 24 objects"
  },
  {
   "property": "C95",
   "status": "partial",
   "theorems": [
    "Verif.Config.C95_refuted",
    "Verif.Config.C95_stored_partial"
   ],
   "note": "refuted: the error is dropped and the element accepted with the old frame length; an unsupported length is never stored"
  },
  {
   "property": "C96",
   "status": "proved",
   "theorems": [
    "Verif.Config.C96_limits",
    "Verif.Config.C96_safe"
   ],
   "note": ""
  },
  {
   "property": "C97",
   "status": "partial",
   "theorems": [
    "Verif.Config.C97_refuted",
    "Verif.Config.C97_lost",
    "Verif.Config.C97_refuted_25",
    "Verif.Config.C97_unshifted_partial"
   ],
   "note": "refuted: a shifted stereo pair loses its second channel, and a 25th channel overwrites the first; identity for unshifted elements of up to 24 channels"
  },
  {
   "property": "C98",
   "status": "partial",
   "theorems": [
    "Verif.Config.C98_refuted",
    "Verif.Config.C98_accepted",
    "Verif.Config.C98_unshifted_partial"
   ],
   "note": "refuted: the shift check never fails, and 14 channels with a shift of 15 index position 29 of 24; holds without shifts"
  },
  {
   "property": "C99",
   "status": "partial",
   "theorems": [
    "Verif.Config.C99_refuted",
    "Verif.Config.C99_groups_partial",
    "Verif.Config.C99_elements_partial",
    "Verif.Config.C99_extensions_partial",
    "Verif.Config.C99_short_partial",
    "Verif.Config.C99_sequence_partial"
   ],
   "note": "refuted by 25 objects and by long downmix matrices; every other part is read inside the tables, and so are whole configurations of less than 256 bytes with at most 24 objects, one after the other"
  },
  {
   "property": "C100",
   "status": "proved",
   "theorems": [
    "Verif.Limiter.C100_off",
    "Verif.Limiter.C100_fade",
    "Verif.Limiter.C100_later"
   ],
   "note": "Initialisation always switches the limiter on, so this path is not reached through this decoder."
  },
  {
   "property": "C101",
   "status": "partial",
   "theorems": [
    "Verif.Api.C101_refuted",
    "Verif.Api.C101_reported_partial"
   ],
   "note": "refuted: after an error return the count of the last frame is reported again.  Proved: 0 after a bit buffer jump, and exactly the bytes written after success."
  },
  {
   "property": "C102",
   "status": "partial",
   "theorems": [
    "Verif.Interact.C102_refuted",
    "Verif.Interact.C102_order_refuted",
    "Verif.Interact.C102_partial",
    "Verif.Interact.C102_refused_partial"
   ],
   "note": "refuted: the caller drops the error, and the permissions looked at are those of the group at the same place, not with the same identifier.  Proved for the group parser and the group at the same place."
  },
  {
   "property": "C103",
   "status": "partial",
   "theorems": [
    "Verif.ExtElem.C103_absent_refuted",
    "Verif.ExtElem.C103_drc_refuted",
    "Verif.ExtElem.C103_partial",
    "Verif.ExtElem.C103_default_partial"
   ],
   "note": "refuted: only the lengths of elements 0 and 1 are cleared, so an absent element with a higher index is given its last payload again, and the lengths of dynamic range control payloads add up.  Proved for elements 0 and 1 and for present elements of other types, one access unit per call."
  },
  {
   "property": "C104",
   "status": "partial",
   "theorems": [
    "Verif.ExtElem.C104_rows",
    "Verif.ExtElem.C104_from_start",
    "Verif.ExtElem.C104_refuted"
   ],
   "note": "refuted for dynamic range control: after k calls the length of an element with index 2 is k times the payload.  Proved: all writes are inside the rows, and the lengths of all other elements are at most 1536."
  },
  {
   "property": "C105",
   "status": "partial",
   "theorems": [
    "Verif.ExtElem.C105_refuted",
    "Verif.ExtElem.C105_partial"
   ],
   "note": "refuted: the start and stop flags are skipped and every fragment replaces the one before.  Proved for payloads in one piece."
  },
  {
   "property": "C106",
   "status": "proved",
   "theorems": [
    "Verif.DrcGain.C106_gain_curve",
    "Verif.DrcGain.C106_ordered"
   ],
   "note": "linear interpolation and 1024 samples per frame, which is all the decoder admits; single-band gains; conversion to linear gain is an arbitrary function."
  },
  {
   "property": "C107",
   "status": "partial",
   "theorems": [
    "Verif.DrcGain.C107_refuted",
    "Verif.DrcGain.C107_partial"
   ],
   "note": "refuted: when a node time more than two frames away is refused, the times read so far stay, and the next frame without a payload writes outside the gain buffer.  Proved for all sequences of accepted payloads.  Payloads refused in other ways leave nodes that are not modelled."
  },
  {
   "property": "C108",
   "status": "proved",
   "theorems": [
    "Verif.DrcGain.C108_gain_range",
    "Verif.DrcGain.C108_clipping",
    "Verif.DrcGain.C108_sign"
   ],
   "note": ""
  },
  {
   "property": "C109",
   "status": "partial",
   "theorems": [
    "Verif.DrcGain.C109_refuted",
    "Verif.DrcGain.C109_partial"
   ],
   "note": "refuted: the nodes of the last payload are played again in every frame without one, so the gain returns to the first of them.  Proved when all nodes of the last payload have the same gain."
  },
  {
   "property": "C110",
   "status": "partial",
   "theorems": [
    "Verif.DrcGain.C110_refuted",
    "Verif.DrcGain.C110_reservoir",
    "Verif.DrcGain.C110_partial"
   ],
   "note": "refuted: after a frame with a node at its end a payload with nodes after the end of its frame is accepted, but its gains are never applied and the frame fails.  Proved: gains can be applied if and only if the node times rise strictly."
  },
  {
   "property": "C111",
   "status": "proved",
   "theorems": [
    "Verif.DrcGain.C111_band",
    "Verif.DrcGain.C111_payload",
    "Verif.DrcGain.parAt_coded"
   ],
   "note": "gain sets with at most four bands, at most 24 of them; at most 32 nodes."
  },
  {
   "property": "C112",
   "status": "partial",
   "theorems": [
    "Verif.DrcGain.C112_refuted",
    "Verif.DrcGain.C112_partial"
   ],
   "note": "refuted: two extensions are always refused.  Proved for one."
  },
  {
   "property": "C113",
   "status": "partial",
   "theorems": [
    "Verif.Arith.C113_spectrum_partial"
   ],
   "note": "missing: magnitudes of 2^30 and more, for which the signs are lost (C58), and codes that end within 15 bits of the end of the input, for which C32 is refuted."
  },
  {
   "property": "C114",
   "status": "partial",
   "theorems": [
    "Verif.Oam.C114_refuted",
    "Verif.Oam.C114_absolute_partial",
    "Verif.Oam.C114_differences_partial"
   ],
   "note": "refuted: absolutely coded dynamic metadata set fixed parameters to 0, and differentially coded ones do so with a fixed spread.  Proved: fixed parameters take no bits, and in differentially coded metadata position and gain keep their values."
  },
  {
   "property": "C115",
   "status": "proved",
   "theorems": [
    "Verif.Oam.C115_descaled"
   ],
   "note": "the powers of two in radius and gain are arbitrary functions; height and depth of the spread are not covered."
  },
  {
   "property": "C116",
   "status": "partial",
   "theorems": [
    "Verif.DrcLoud.C116_decoded_partial",
    "Verif.DrcLoud.C116_refuted"
   ],
   "note": "refuted: an album entry makes the programme entry of the same number one about the whole programme.  Proved without albums; with albums for the rest of the entries."
  },
  {
   "property": "C117",
   "status": "partial",
   "theorems": [
    "Verif.DrcLoud.C117_refuted",
    "Verif.DrcLoud.C117_sixty_three_partial",
    "Verif.DrcLoud.C117_short_partial"
   ],
   "note": "refuted: 37 entries.  Proved: 63 elements suffice for every payload, and payloads of less than 697 bits stay within 36."
  },
  {
   "property": "C118",
   "status": "partial",
   "theorems": [
    "Verif.DrcConfig.C118_refuted",
    "Verif.DrcConfig.C118_enlarged_partial"
   ],
   "note": "refuted: 25 gain sets; 31 instructions with the two that stand for no DRC.  Proved: 63 gain sets and 33 instructions suffice for every payload."
  },
  {
   "property": "C119",
   "status": "proved",
   "theorems": [
    "Verif.DrcConfig.C119_accepted"
   ],
   "note": ""
  },
  {
   "property": "C120",
   "status": "proved",
   "theorems": [
    "Verif.DrcConfig.C120_groups"
   ],
   "note": ""
  },
  {
   "property": "C121",
   "status": "partial",
   "theorems": [
    "Verif.DrcConfig.C121_refuted",
    "Verif.DrcConfig.C121_sequence_partial"
   ],
   "note": "refuted: gain sets 0 and 5.  Proved for gain sets after the first one."
  },
  {
   "property": "C122",
   "status": "partial",
   "theorems": [
    "Verif.DrcConfig.C122_refuted",
    "Verif.DrcConfig.C122_modifiers_partial"
   ],
   "note": "refuted: two sets of coefficients at one location.  Proved when locations are distinct."
  },
  {
   "property": "C123",
   "status": "partial",
   "theorems": [
    "Verif.DrcConfig.C123_refuted",
    "Verif.DrcConfig.C123_decoded_partial"
   ],
   "note": "refuted: a band that starts at subband 128 is taken to start at -128.  Proved for starts below 128."
  },
  {
   "property": "C124",
   "status": "partial",
   "theorems": [
    "Verif.Config.C124_refuted",
    "Verif.Config.C124_default_partial"
   ],
   "note": "refuted: after audio scene and group information the priorities of the old configuration stay.  Proved when the flag for group information is clear after the configuration."
  },
  {
   "property": "C125",
   "status": "proved",
   "theorems": [
    "Verif.Config.C125_least"
   ],
   "note": ""
  },
  {
   "property": "C126",
   "status": "partial",
   "theorems": [
    "Verif.Config.C126_refuted",
    "Verif.Config.C126_extensions_partial"
   ],
   "note": "refuted without configuration extensions, in both directions.  Proved with extensions, as an equivalence."
  },
  {
   "property": "C127",
   "status": "partial",
   "theorems": [
    "Verif.Config.C127_refuted",
    "Verif.Config.C127_layout_partial"
   ],
   "note": "refuted: the channels of all groups so far are counted.  Proved with that number, which is right for the first group."
  },
  {
   "property": "C128",
   "status": "proved",
   "theorems": [
    "Verif.DrcConfig.C128_plain",
    "Verif.DrcConfig.C128_ducking"
   ],
   "note": "For instructions that are accepted; C119-C122 say which groups they have."
  },
  {
   "property": "C129",
   "status": "proved",
   "theorems": [
    "Verif.DrcLoud.C129_known"
   ],
   "note": ""
  },
  {
   "property": "C130",
   "status": "partial",
   "theorems": [
    "Verif.DrcSel.loudness_control_partial",
    "Verif.DrcSel.loudness_control_refuted"
   ],
   "note": "refuted: with DRC off the set identifier -1 is overwritten with 0 before it is tested, so that group 0 is preferred to larger groups. Proved for distinct requested groups and at most one requested preset, unless DRC is off and group 0 is requested."
  },
  {
   "property": "C131",
   "status": "partial",
   "theorems": [
    "Verif.DrcSel.normalised_partial",
    "Verif.DrcSel.normalised_refuted"
   ],
   "note": "refuted for the same reason as C130; proved under the hypotheses of C130 and for values in the coded range."
  },
  {
   "property": "C132",
   "status": "partial",
   "theorems": [
    "Verif.DrcSel.applied_partial",
    "Verif.DrcSel.applied_refuted"
   ],
   "note": "refuted: the gain of every candidate is written to the same place, so that the last candidate's gain is applied. The gain applied is proved to be 0 or the gain for some loudness information."
  },
  {
   "property": "C133",
   "status": "partial",
   "theorems": [
    "Verif.DrcSel.bounds_partial",
    "Verif.DrcSel.entries_unbounded",
    "Verif.DrcSel.bounds_refuted"
   ],
   "note": "refuted: the seventeenth entry for the same downmix and set is written behind an array of sixteen. Proved for up to sixteen entries, at most one requested preset, up to thirteen instructions of the stream and gain set indices inside the table."
  },
  {
   "property": "C134",
   "status": "partial",
   "theorems": [
    "Verif.DrcSel.cleared_partial",
    "Verif.DrcSel.cleared_refuted"
   ],
   "note": "refuted: with a downmix requested and no peak level for it, the flag behind the peak levels written is read. Proved if the base layout is requested."
  },
  {
   "property": "C135",
   "status": "partial",
   "theorems": [
    "Verif.DrcSel.final_partial",
    "Verif.DrcSel.limit_refuted"
   ],
   "note": "refuted: the pre-selection counts the candidates within the limit but then takes as many from the beginning of the unfiltered list. Proved is which candidate the final selection takes of those it gets, if all sets for presets are for the same preset and values are in the coded range; in this the rule for the target loudness is reversed in the code: if only some meet it those that do not are kept."
  },
  {
   "property": "C136",
   "status": "proved",
   "theorems": [
    "Verif.DrcSel.effect_honoured"
   ],
   "note": "For one desired effect, which is what the decoder asks for (ia_core_coder_decode_main.c 3231)."
  },
  {
   "property": "C137",
   "status": "partial",
   "theorems": [
    "Verif.DrcSel.active_sets_partial",
    "Verif.DrcSel.twice_refuted"
   ],
   "note": "refuted: a fading set with another effect is active as fading set and as selected set. The rest is proved."
  },
  {
   "property": "C138",
   "status": "proved",
   "theorems": [
    "Verif.DrcSel.ducking_before_fading"
   ],
   "note": "For positive set identifiers."
  },
  {
   "property": "C139",
   "status": "partial",
   "theorems": [
    "Verif.DrcSel.drc_off_partial",
    "Verif.DrcSel.drc_off_refuted"
   ],
   "note": "refuted: the set for no DRC gets identifier 0; the first set with that identifier, which can be one of the stream with a dependency, is selected. Proved if the sets of the stream have positive identifiers."
  },
  {
   "property": "C140",
   "status": "partial",
   "theorems": [
    "Verif.DrcSel.peak_partial",
    "Verif.DrcSel.peak_refuted"
   ],
   "note": "refuted: the level of an entry that does not match is written to the first place and stays there. Every level is proved to be 0, a limiter target, or one of loudness information for the downmix or the base layout and for the set or any set; and it is a limiter target or of information for the same group or preset unless it is the only one."
  },
  {
   "property": "C141",
   "status": "partial",
   "theorems": [
    "Verif.DrcSel.request_partial",
    "Verif.DrcSel.request_refuted"
   ],
   "note": "refuted: when a preset matches, sets for other presets are kept. Proved with DRC on if all sets for presets are for requested ones."
  },
  {
   "property": "C142",
   "status": "partial",
   "theorems": [
    "Verif.DrcSel.fits_partial",
    "Verif.DrcSel.bands_refuted"
   ],
   "note": "refuted: the bands of the set depended on are only checked for as many channel groups as the selected set has. Everything else is proved for moderate levels, and the bands of the selected set."
  },
  {
   "property": "C143",
   "status": "partial",
   "theorems": [
    "Verif.DrcSel.chain_partial",
    "Verif.DrcSel.chain_refuted"
   ],
   "note": "refuted: if the output is above the peak limit and no effect is asked for, chains are not noticed. Proved for the selected set: what it depends on is active, and within the peak limit depends on no other."
  },
  {
   "property": "C144",
   "status": "partial",
   "theorems": [
    "Verif.DrcSel.succeeds_partial",
    "Verif.DrcSel.succeeds_refuted"
   ],
   "note": "refuted: when the peak limit leaves fewer candidates, the first ones of all candidates are taken; if these are for groups that were not requested none is left. Proved without loudness normalisation if all sets are for all groups, all that sets depend on is there, and the set that fits depends on no other."
  },
  {
   "property": "C145",
   "status": "partial",
   "theorems": [
    "Verif.DrcApply.C145_crossover",
    "Verif.DrcApply.C145_slopes",
    "Verif.DrcApply.C145_subbands_partial",
    "Verif.DrcApply.C145_refuted",
    "Verif.DrcApply.C145_border_refuted"
   ],
   "note": "refuted for borders given as subbands: they need not ascend, and those above 127 are stored as negative numbers. Proved for crossover frequencies, whatever they are, and for borders that are stored without change of sign and do not descend."
  },
  {
   "property": "C146",
   "status": "proved",
   "theorems": [
    "Verif.DrcApply.C146_time_domain",
    "Verif.DrcApply.C146_one_band"
   ],
   "note": "for sets that fit the decoder; C151 says which do"
  },
  {
   "property": "C147",
   "status": "proved",
   "theorems": [
    "Verif.DrcApply.C147_subbands",
    "Verif.DrcApply.C147_flat"
   ],
   "note": "for sets that fit the decoder; C151 says which do"
  },
  {
   "property": "C148",
   "status": "partial",
   "theorems": [
    "Verif.DrcApply.C148_partial",
    "Verif.DrcApply.C148_refuted"
   ],
   "note": "refuted: a bank that needs no all-pass filters keeps those of an earlier configuration. Proved for banks without filters."
  },
  {
   "property": "C149",
   "status": "partial",
   "theorems": [
    "Verif.DrcApply.C149_partial",
    "Verif.DrcApply.C149_filters_refuted",
    "Verif.DrcApply.C149_groups_refuted"
   ],
   "note": "refuted: there is room for 9 all-pass filters in a bank and for 8 banks, and neither is checked. Proved for at most 7 groups, counting channels in none as one, that need at most 9 all-pass filters each."
  },
  {
   "property": "C150",
   "status": "partial",
   "theorems": [
    "Verif.DrcApply.C150_partial",
    "Verif.DrcApply.C150_refuted",
    "Verif.DrcApply.C150_stale_refuted"
   ],
   "note": "refuted: if the configuration, or an earlier one, has a set for a certain downmix then active sets for any downmix are handed to neither decoder. Proved for a first configuration without such a mixture."
  },
  {
   "property": "C151",
   "status": "partial",
   "theorems": [
    "Verif.DrcApply.C151_partial",
    "Verif.DrcApply.C151_refuted"
   ],
   "note": "refuted: gain sets without bands are accepted, and there are fewer rows than channels. Proved for the first gain decoder, that is sets for the base layout without other downmixes, whose gain sets have bands."
  },
  {
   "property": "C152",
   "status": "partial",
   "theorems": [
    "Verif.DrcApply.C152_bytes",
    "Verif.DrcApply.C152_partial",
    "Verif.DrcApply.C152_refuted"
   ],
   "note": "refuted: three sets of 16 groups each need 8328 bytes more than there are. What is handed out is computed exactly, and fits for at most 47 gains and 16 rows, or 33 gains and 64 rows."
  },
  {
   "property": "C153",
   "status": "partial",
   "theorems": [
    "Verif.DrcApply.C153_partial",
    "Verif.DrcApply.C153_refuted"
   ],
   "note": "refuted: output layout 13 has 24 loudspeakers and there is room for 16. Proved for the first decoder set up, at most 16 channels and at most three sets of at most 15 groups of one band."
  },
  {
   "property": "C154",
   "status": "partial",
   "theorems": [
    "Verif.Avq.C154_lattice_partial",
    "Verif.Avq.C154_refuted",
    "Verif.Avq.C154_shift_refuted"
   ],
   "note": "refuted for large codebook numbers, which nothing limits: coordinates are cut off from 59 on, and from 67 on words are shifted by 32 bits. Proved for codebooks up to 52; 53 to 58 are left open."
  },
  {
   "property": "C155",
   "status": "partial",
   "theorems": [
    "Verif.Avq.C155_injective_partial",
    "Verif.Avq.C155_refuted"
   ],
   "note": "refuted for large codebook numbers, where coordinates are cut off. Proved for codebooks up to 52, other than 1, which has one point and which is never coded."
  },
  {
   "property": "C156",
   "status": "partial",
   "theorems": [
    "Verif.Avq.C156_nearest_partial",
    "Verif.Avq.C156_refuted"
   ],
   "note": "refuted: squares of distances are cut off, and from 16 bits on the farther of two points can be taken, as for indices that are all 0. Proved for codebooks up to 32, that is up to 14 bits for each Voronoi index."
  },
  {
   "property": "C157",
   "status": "proved",
   "theorems": [
    "Verif.Lpd.C157_numbers",
    "Verif.Lpd.C157_prefix"
   ],
   "note": "exact characterisation of accepted inputs for each of the three codes."
  },
  {
   "property": "C158",
   "status": "partial",
   "theorems": [
    "Verif.Lpd.C158_entries",
    "Verif.Lpd.C158_most",
    "Verif.Lpd.C158_refuted"
   ],
   "note": "refuted: with codebook number 69 the parser reads a field of 33 bits, for which the reader shifts a word by 32 or more. The bound of 109 entries is proved for all values of all fields, and met by a frame."
  },
  {
   "property": "C159",
   "status": "proved",
   "theorems": [
    "Verif.Lpd.C159_decoded",
    "Verif.Lpd.C159_coded"
   ],
   "note": "fields of more than 24 bits, that is codebook numbers above 52, count as not accepted. Over exact numbers; the square root is any function, and not a number is a case of its own. The points of codes are those of C154 to C156."
  },
  {
   "property": "C160",
   "status": "partial",
   "theorems": [
    "Verif.Lpd.C160_separated",
    "Verif.Lpd.C160_refuted"
   ],
   "note": "refuted for the upper limit: with row 0 of the tables and a code of codebook 7 the last frequency is above 6400, and then the weight for the next filter is the root of a negative number. The separation is proved for all sequences of accepted frames, over exact numbers."
  },
  {
   "property": "C161",
   "status": "proved",
   "theorems": [
    "Verif.Lpd.C161_sent",
    "Verif.Lpd.C161_frequencies"
   ],
   "note": "for accepted frames, with the meaning of rows as in C159."
  },
  {
   "property": "C162",
   "status": "proved",
   "theorems": [
    "Verif.Lpd.C162_numbers",
    "Verif.Lpd.C162_injective",
    "Verif.Lpd.C162_modes",
    "Verif.Lpd.C162_fill"
   ],
   "note": "for all numbers."
  },
  {
   "property": "C163",
   "status": "partial",
   "theorems": [
    "Verif.Lpd.C163_numbers",
    "Verif.Lpd.C163_lattice",
    "Verif.Lpd.C163_inside",
    "Verif.Lpd.C163_refuted"
   ],
   "note": "refuted: with codebook number 69 fields of 33 bits are read. The rest is proved for accepted frames, in which fields have at most 24 bits."
  },
  {
   "property": "C164",
   "status": "proved",
   "theorems": [
    "Verif.Lpd.C164_frame",
    "Verif.Lpd.C164_unique"
   ],
   "note": "the programs for the bandwidth extension and for what follows the head of a transform coded part are parameters, of which it is assumed that they accept exactly the codes of some relation. Fields of more than 24 bits count as not accepted."
  },
  {
   "property": "C165",
   "status": "proved",
   "theorems": [
    "Verif.Lpd.C165_size",
    "Verif.Lpd.C165_sizes"
   ],
   "note": "about the code that C164 says is accepted."
  },
  {
   "property": "C166",
   "status": "proved",
   "theorems": [
    "Verif.Lpd.C166_lines"
   ],
   "note": "with the parameters of C164."
  },
  {
   "property": "C167",
   "status": "proved",
   "theorems": [
    "Verif.Acelp.pulses_inside",
    "Verif.Acelp.subCode_pulses"
   ],
   "note": "for all fields within the widths that are parsed; the second theorem is for subframes as coded in the bitstream (C164)."
  },
  {
   "property": "C168",
   "status": "partial",
   "theorems": [
    "Verif.Acelp.pulses_iff",
    "Verif.Acelp.pulses_number_refuted",
    "Verif.Acelp.pulses_number_partial",
    "Verif.Acelp.pulses_number_most"
   ],
   "note": "refuted for modes 3 to 5: of three or four pulses on a track opposite ones at one place cancel each other; in mode 5 the vector can be zero. pulses_iff says exactly which vectors can be coded in each mode, including those; in the other modes the number is as claimed."
  },
  {
   "property": "C169",
   "status": "partial",
   "theorems": [
    "Verif.Acelp.pulses_unique_partial",
    "Verif.Acelp.pulses_unique_refuted"
   ],
   "note": "refuted for modes 3, 4 and 5 by two codes each; proved for the others."
  },
  {
   "property": "C170",
   "status": "partial",
   "theorems": [
    "Verif.Acelp.lags_within",
    "Verif.Acelp.adaptive_safe",
    "Verif.Acelp.adaptive_safe_refuted",
    "Verif.Acelp.lags_within_refuted"
   ],
   "note": "refuted: at 32000 Hz, which is accepted, a lag of 537 reads before the start of the buffer; at 8000 Hz a lag exceeds the largest one. Proved for rates (of the linear prediction part, half the rate for full band) from 8095 to 24282."
  },
  {
   "property": "C171",
   "status": "partial",
   "theorems": [
    "Verif.Acelp.adaptive_interpolates",
    "Verif.Acelp.adaptive_rates",
    "Verif.Acelp.adaptive_past_refuted"
   ],
   "note": "refuted: at 2000 Hz, which is accepted, a lag of 5 makes the result depend on what was in the buffer after the past excitation. Proved for lags of at least 17, and thereby for rates from 8095 to 24282."
  },
  {
   "property": "C172",
   "status": "proved",
   "theorems": [
    "Verif.Acelp.threshold_eq",
    "Verif.Acelp.voicing_bounds",
    "Verif.Acelp.stability_bounds",
    "Verif.Acelp.stability_same",
    "Verif.Acelp.smooth_bounds",
    "Verif.Acelp.smooth_unstable",
    "Verif.Acelp.smooth_steady"
   ],
   "note": "for gains that are not negative, over exact numbers; the last threshold is arbitrary."
  },
  {
   "property": "C173",
   "status": "proved",
   "theorems": [
    "Verif.Acelp.deemph_preemph",
    "Verif.Acelp.preemph_deemph",
    "Verif.Acelp.deemph_pieces",
    "Verif.Acelp.residual_synthesis",
    "Verif.Acelp.synthesis_residual"
   ],
   "note": "over exact numbers."
  },
  {
   "property": "C174",
   "status": "proved",
   "theorems": [
    "Verif.Scf.C174_decode"
   ],
   "note": "the condition on the word is that its first bits are the codeword. That the decoder looks at nothing behind the codeword is proved for all words; the 121 codewords are then checked in the kernel."
  },
  {
   "property": "C175",
   "status": "proved",
   "theorems": [
    "Verif.Scf.C175_refines",
    "Verif.Scf.C175_coded"
   ],
   "note": "for buffers in which the number of bits left reaches to the end of the bytes, as in this decoder. C175_refines is for all inputs whose codewords end within the input or that are rejected; C175_coded is the round trip from any sequence of scale factors that can be coded."
  },
  {
   "property": "C176",
   "status": "partial",
   "theorems": [
    "Verif.Scf.C176_truncated_refuted",
    "Verif.Scf.C176_enough_partial"
   ],
   "note": "refuted: with 32 bits left a third codeword begins behind the input and the word is shifted by more than 31 bits, which is undefined; the test of the caller asks for three bytes only. Partial: with 19 bits left for each band of each group nothing is undefined."
  },
  {
   "property": "C177",
   "status": "partial",
   "theorems": [
    "Verif.Scf.C177_range_refuted",
    "Verif.Scf.C177_range_partial"
   ],
   "note": "refuted: only the upper limit is tested; coded differences lead to the scale factors -7 and -54, which are accepted. Partial: none is above 255 and every window has one for each band."
  },
  {
   "property": "C178",
   "status": "proved",
   "theorems": [
    "Verif.Fd.C178_windows",
    "Verif.Fd.C178_offsets"
   ],
   "note": ""
  },
  {
   "property": "C179",
   "status": "partial",
   "theorems": [
    "Verif.Fd.C179_no_error",
    "Verif.Fd.C179_fits_refuted",
    "Verif.Fd.C179_fits_partial"
   ],
   "note": "refuted: the error for wrong sequences is never given; a long window after a start window is accepted. Partial: a coded start window is read as start or as stop and start so that it fits; all others are taken as coded."
  },
  {
   "property": "C180",
   "status": "partial",
   "theorems": [
    "Verif.Fd.C180_tns_partial",
    "Verif.Fd.C180_tns_refuted"
   ],
   "note": "refuted: at every sampling rate, a filter over all bands of a long window is refused with an error. Partial: filters that start at band 1 or above are accepted exactly as coded."
  },
  {
   "property": "C181",
   "status": "partial",
   "theorems": [
    "Verif.Fd.C181_pair_partial",
    "Verif.Fd.C181_same_partial",
    "Verif.Fd.C181_refuted"
   ],
   "note": "refuted: common noise shaping of another pair than the first is read for the windows of the first channel of the stream; a pair of long windows is not decoded as coded, if that channel has short windows, and is an error, if it has none. Partial: exact for the first pair, and for other pairs with windows of the same length. Masks of gap filling are a parameter of which it is assumed that they are read as coded."
  },
  {
   "property": "C182",
   "status": "proved",
   "theorems": [
    "Verif.Fd.C182_stereo",
    "Verif.Fd.C182_mask",
    "Verif.Fd.C182_size"
   ],
   "note": "C182_stereo has a mask that is large enough as a condition, which C182_size shows."
  },
  {
   "property": "C183",
   "status": "proved",
   "theorems": [
    "Verif.Fd.C183_pred"
   ],
   "note": "conditions: no more bands than are cleared, and no more than there are entries, which the caller ensures (commonWindow_reads)."
  },
  {
   "property": "C184",
   "status": "partial",
   "theorems": [
    "Verif.Fd.C184_complex_partial",
    "Verif.Fd.C184_refuted"
   ],
   "note": "refuted: it is the first element of the configuration that is asked, and stereo filling of the frame before. Partial: exact in the first element after frames without stereo filling."
  },
  {
   "property": "C185",
   "status": "partial",
   "theorems": [
    "Verif.Fd.C185_bands_partial",
    "Verif.Fd.C185_refuted"
   ],
   "note": "refuted: 60 bands of the right channel are accepted at 48 kHz and then are the number of stereo bands. Partial: the number of bands of each channel is limited, and that of stereo bands, if the right channel has fewer bands than there are."
  },
  {
   "property": "C186",
   "status": "proved",
   "theorems": [
    "Verif.FdMix.C186_ms",
    "Verif.FdMix.C186_inverse"
   ],
   "note": "over rational numbers."
  },
  {
   "property": "C187",
   "status": "proved",
   "theorems": [
    "Verif.FdMix.C187_upmix",
    "Verif.FdMix.C187_rate",
    "Verif.FdMix.C187_prev",
    "Verif.FdMix.encoded_exists"
   ],
   "note": "over rational numbers; flags are 0 or 1, and without imaginary part only below the limit."
  },
  {
   "property": "C188",
   "status": "proved",
   "theorems": [
    "Verif.FdMix.C188_imag",
    "Verif.FdMix.C188_filters"
   ],
   "note": "over rational numbers; coefficients are given in millionths."
  },
  {
   "property": "C189",
   "status": "partial",
   "theorems": [
    "Verif.FdMix.C189_stop_partial",
    "Verif.FdMix.C189_refuted"
   ],
   "note": "refuted: with imaginary part the limit is not looked at. Partial: without imaginary part. When parsing alone sets flags, there are none at or above the limit (C183)."
  },
  {
   "property": "C190",
   "status": "proved",
   "theorems": [
    "Verif.Fdp.C190_predict",
    "Verif.Fdp.C190_silent"
   ],
   "note": "over rational numbers for the spectrum; quantised values have less than 32 bits (C58)."
  },
  {
   "property": "C191",
   "status": "proved",
   "theorems": [
    "Verif.Fdp.C191_safe"
   ],
   "note": "conditions: quantised values of less than 32 bits, and no more bands than there are in frames with long windows."
  },
  {
   "property": "C192",
   "status": "partial",
   "theorems": [
    "Verif.Fdp.C192_partial",
    "Verif.Fdp.C192_refuted"
   ],
   "note": "refuted: with 20 bands at 48 kHz, which end at line 132, coded prediction is not used. Partial: it is used, if the coded bands end beyond the prediction bandwidth."
  },
  {
   "property": "C193",
   "status": "proved",
   "theorems": [
    "Verif.Fdp.C193_spacing"
   ],
   "note": "the table is checked as a whole in the kernel."
  },
  {
   "property": "C194",
   "status": "partial",
   "theorems": [
    "Verif.Fdp.C194_tcx_partial",
    "Verif.Fdp.C194_refuted"
   ],
   "note": "refuted: value 2^25 at gain 95 overflows a product of 32 bits. Partial: each line gets its estimate, if the scaled values have 32 bits less 65536."
  },
  {
   "property": "C195",
   "status": "proved",
   "theorems": [
    "Verif.Fdp.C195_root"
   ],
   "note": ""
  },
  {
   "property": "C196",
   "status": "proved",
   "theorems": [
    "Verif.InvQuant.C196_lines"
   ],
   "note": "over rational numbers; powers and the table of noise levels are arbitrary functions; without gap filling and stereo filling."
  },
  {
   "property": "C197",
   "status": "proved",
   "theorems": [
    "Verif.InvQuant.C197_coded"
   ],
   "note": "as C196."
  },
  {
   "property": "C198",
   "status": "proved",
   "theorems": [
    "Verif.InvQuant.C198_silent"
   ],
   "note": "as C196; condition: the first entry of the table of powers is 0."
  },
  {
   "property": "C199",
   "status": "partial",
   "theorems": [
    "Verif.Tns.C199_inverse_partial",
    "Verif.Tns.C199_decodes_partial",
    "Verif.Tns.C199_windows_partial",
    "Verif.Tns.C199_bands",
    "Verif.Tns.C199_refuted"
   ],
   "note": "refuted: with gap filling the start of a filter is limited by the largest band of noise shaping but its end is not, so at 48 kHz with 47 bands a filter from band 45 on is applied from band 40 on, and lines there are filtered twice. Partial: without gap filling, or if there are no bands above that limit. Over rational numbers; sines are an arbitrary function."
  },
  {
   "property": "C200",
   "status": "proved",
   "theorems": [
    "Verif.Tns.C200_accepted"
   ],
   "note": ""
  },
  {
   "property": "C201",
   "status": "proved",
   "theorems": [
    "Verif.Tns.C201_limit"
   ],
   "note": "over rational numbers."
  },
  {
   "property": "C202",
   "status": "partial",
   "theorems": [
    "Verif.Tns.C202_lpd_partial",
    "Verif.Tns.C202_start",
    "Verif.Tns.C202_refuted"
   ],
   "note": "refuted: after eight short windows in one group in any channel, a filter from band 10 on is not applied at 48 kHz, as its start is taken from the table of offsets of that grouping. Partial: if the first group of the last short windows had one window, as the table at the start has. With full band linear prediction."
  },
  {
   "property": "C203",
   "status": "partial",
   "theorems": [
    "Verif.Tns.C203_unfiltered_partial",
    "Verif.Tns.C203_refuted"
   ],
   "note": "refuted: a filter of an earlier frame is kept and applied in a frame whose number of bands is coded for noise filling only. Partial: if no earlier part at the same place had filters."
  },
  {
   "property": "C204",
   "status": "proved",
   "theorems": [
    "Verif.Tns.C204_safe",
    "Verif.Tns.C204_array"
   ],
   "note": "with full band linear prediction."
  },
  {
   "property": "C205",
   "status": "partial",
   "theorems": [
    "Verif.FdStream.C205_blocks_partial",
    "Verif.FdStream.C205_tcx"
   ],
   "note": "missing: numbers of more than 30 bits (C58) and less than 15 bits after a block (C32)."
  },
  {
   "property": "C206",
   "status": "partial",
   "theorems": [
    "Verif.FdStream.C206_channel_partial",
    "Verif.FdStream.C206_silent"
   ],
   "note": "missing: numbers of more than 30 bits (C58), less than 15 bits behind a spectrum (C32), filters from band 0 on (C180), and input that fills the buffer (C207). Gap filling data are read by a parameter that is assumed to decode its own code. C206_silent: a channel without coded bands needs no bits behind it."
  },
  {
   "property": "C207",
   "status": "partial",
   "theorems": [
    "Verif.FdStream.C207_full_refuted",
    "Verif.FdStream.C206_channel_partial"
   ],
   "note": "refuted: a silent channel within the last 24 bits of an input that fills the buffer is rejected with 0xFFFF9816, and the same bits in an input that does not fill it are decoded. Partial: C206_channel_partial holds for full inputs if more than 24 bits follow the spectrum."
  },
  {
   "property": "C208",
   "status": "proved",
   "theorems": [
    "Verif.Igf.C208_tiles",
    "Verif.Igf.C208_setup",
    "Verif.Igf.C208_range",
    "Verif.Igf.widths_total"
   ],
   "note": "Band tables are those of the code (checked over all of them); start and stop index over all 16 values."
  },
  {
   "property": "C209",
   "status": "proved",
   "theorems": [
    "Verif.Igf.C209_source",
    "Verif.Igf.C209_neighbours",
    "Verif.Igf.C209_inside"
   ],
   "note": ""
  },
  {
   "property": "C210",
   "status": "partial",
   "theorems": [
    "Verif.Igf.C210_refuted",
    "Verif.Igf.C210_least_partial"
   ],
   "note": "refuted: the smallest line is kept in a byte; at 9000 Hz it is 0 instead of 256, and at a sampling rate of 1 the set up divides by 0. Partial: from 9036 Hz on."
  },
  {
   "property": "C211",
   "status": "partial",
   "theorems": [
    "Verif.Igf.C211_refuted",
    "Verif.Igf.C211_reads_partial",
    "Verif.Igf.C211_rates_partial"
   ],
   "note": "refuted: with the smallest line 0 (9000 Hz) whitening reads three places before the spectrum. Partial: from 9036 to 96000 Hz."
  },
  {
   "property": "C212",
   "status": "partial",
   "theorems": [
    "Verif.Igf.C212_coded_partial",
    "Verif.Igf.C212_levels_partial"
   ],
   "note": "missing: codes within 15 bits of the end of the input (C32), levels of 2^30 and more, more than 64 bands or 8 windows."
  },
  {
   "property": "C213",
   "status": "partial",
   "theorems": [
    "Verif.Igf.C213_refuted",
    "Verif.Igf.C213_level_partial",
    "Verif.Igf.C213_exponent"
   ],
   "note": "refuted: two coded levels reach 2^140, which is infinite in single precision. Partial: levels up to 255, or 511 with high resolution."
  },
  {
   "property": "C214",
   "status": "proved",
   "theorems": [
    "Verif.Igf.C214_data",
    "Verif.Igf.C214_ranges"
   ],
   "note": "At least one tile; with levels for a range without tiles (C215) one level of whitening is read all the same."
  },
  {
   "property": "C215",
   "status": "partial",
   "theorems": [
    "Verif.Igf.C215_refuted",
    "Verif.Igf.C215_accepted_partial"
   ],
   "note": "refuted: for short windows the test uses ends of bands of long windows; at 16 kHz levels are accepted although there is nothing to copy from, and each line is its own source. Partial: whatever is accepted has a range above the smallest line in the table that is looked at, which is the right one for long windows."
  },
  {
   "property": "C216",
   "status": "proved",
   "theorems": [
    "Verif.Igf.C216_energy",
    "Verif.Igf.C216_level",
    "Verif.Igf.C216_frame",
    "Verif.Igf.C216_bands",
    "Verif.Igf.C216_high"
   ],
   "note": "Over exact numbers with a square root; whitening of the copies comes before. Window types 2 and 3: C219."
  },
  {
   "property": "C217",
   "status": "proved",
   "theorems": [
    "Verif.Igf.C217_kept",
    "Verif.Igf.C217_cover"
   ],
   "note": "Over exact numbers; long and short windows."
  },
  {
   "property": "C218",
   "status": "partial",
   "theorems": [
    "Verif.Igf.C218_refuted"
   ],
   "note": "refuted: with 2 of 8 bits left levels are delivered, bits are skipped backwards and the next bit is read from before the input."
  },
  {
   "property": "C219",
   "status": "partial",
   "theorems": [
    "Verif.Igf.C219_refuted",
    "Verif.Igf.C219_energy_partial"
   ],
   "note": "refuted: coded lines are multiplied by the level after their energy was taken, so that a band that has its level gets four times its energy at the level 2. Partial: the energy it has instead."
  },
  {
   "property": "C220",
   "status": "proved",
   "theorems": [
    "Verif.Hoa.C220_config"
   ],
   "note": ""
  },
  {
   "property": "C221",
   "status": "proved",
   "theorems": [
    "Verif.Hoa.C221_split",
    "Verif.Hoa.C221_fields"
   ],
   "note": ""
  },
  {
   "property": "C222",
   "status": "partial",
   "theorems": [
    "Verif.Hoa.C222_refuted",
    "Verif.Hoa.C222_order_partial"
   ],
   "note": "refuted: order 6 with ambience up to order 7, 64 coefficients of 49, is accepted. Partial: the number of orders that can be sent is a power of 2."
  },
  {
   "property": "C223",
   "status": "proved",
   "theorems": [
    "Verif.Hoa.C223_code",
    "Verif.Hoa.C223_symbols",
    "Verif.Hoa.C223_ends"
   ],
   "note": "6 to 15 bits and the five tables of each."
  },
  {
   "property": "C224",
   "status": "partial",
   "theorems": [
    "Verif.Hoa.C224_refuted",
    "Verif.Hoa.C224_safe_partial"
   ],
   "note": "refuted: with order 6 and the last coefficient in a channel, the array of 49 flags is written at 49. Partial: up to order 4, at most 16 channels, orders sent up to that of the signal and at most 31 entries coded per vector, for frames of less than 2^32 - 1 bits."
  },
  {
   "property": "C225",
   "status": "partial",
   "theorems": [
    "Verif.Hoa.C225_refuted",
    "Verif.Hoa.C225_index_partial",
    "Verif.Hoa.C225_use_partial"
   ],
   "note": "refuted: the index is tested against the codebook of another channel; entry 16 of the codebook with 9 entries is accepted and used. Partial: all channels up to the number of indices use the same codebook; vectors of one entry."
  },
  {
   "property": "C226",
   "status": "partial",
   "theorems": [
    "Verif.Hoa.C226_refuted",
    "Verif.Hoa.C226_sign_refuted",
    "Verif.Hoa.C226_word_partial",
    "Verif.Hoa.C226_huff_partial",
    "Verif.Hoa.C226_tables"
   ],
   "note": "refuted: words and signs are stored at the number of the vector but used at the number of its channel; after an empty channel 192 becomes -1 and the coded 5 becomes -5. Partial: data read with the number of the channel, which is so if channels of vectors are the first ones (C234_order_partial); order up to 5."
  },
  {
   "property": "C227",
   "status": "partial",
   "theorems": [
    "Verif.Hoa.C227_refuted",
    "Verif.Hoa.C227_gain_partial",
    "Verif.Hoa.C227_use_partial",
    "Verif.Hoa.C227_count",
    "Verif.Hoa.C227_kinds"
   ],
   "note": "refuted: gains are read only up to the first missing signal; a coefficient predicted from the second signal only gets the gain 0 and the coded one stays in the bits. Partial: missing signals come last."
  },
  {
   "property": "C228",
   "status": "partial",
   "theorems": [
    "Verif.Hoa.C228_refuted",
    "Verif.Hoa.C228_flag_partial",
    "Verif.Hoa.C228_single_partial"
   ],
   "note": "refuted: the flag keeps its value in frames without directional signals, which are predicted like the frame before. Partial: frames with directional signals, and configurations without prediction."
  },
  {
   "property": "C229",
   "status": "partial",
   "theorems": [
    "Verif.Hoa.C229_refuted",
    "Verif.Hoa.C229_extra_partial"
   ],
   "note": "refuted: the exponent of channels of the smallest ambience is not limited; 64 with an exception reads behind the table. Partial: the additional channels."
  },
  {
   "property": "C230",
   "status": "partial",
   "theorems": [
    "Verif.Hoa.C230_refuted",
    "Verif.Hoa.C230_end_partial"
   ],
   "note": "refuted: from 7 on without an exception the factor falls instead of rising, and the next frame starts at another value. Partial: up to 6, or with an exception, for tables whose rows end at the powers."
  },
  {
   "property": "C231",
   "status": "partial",
   "theorems": [
    "Verif.Hoa.C231_refuted",
    "Verif.Hoa.C231_table_partial",
    "Verif.Hoa.C231_beyond"
   ],
   "note": "refuted: coefficient 64 of 49 (C222) is written behind the table. Partial: no coefficient above 49 and none in two channels."
  },
  {
   "property": "C232",
   "status": "proved",
   "theorems": [
    "Verif.Hoa.C232_sorted",
    "Verif.Hoa.C232_states"
   ],
   "note": ""
  },
  {
   "property": "C233",
   "status": "partial",
   "theorems": [
    "Verif.Hoa.C233_refuted",
    "Verif.Hoa.C233_one_kind_partial"
   ],
   "note": "refuted: vectors overwrite the directional signals in the set. Partial: only one kind in a frame."
  },
  {
   "property": "C234",
   "status": "partial",
   "theorems": [
    "Verif.Hoa.C234_refuted",
    "Verif.Hoa.C234_order_partial"
   ],
   "note": "refuted: whether a vector is new is looked up at the number of the vector instead of the channel; an element that is not to be sent is read. Partial: channels of vectors are the first ones."
  },
  {
   "property": "C235",
   "status": "partial",
   "theorems": [
    "Verif.Hoa.C235_refuted",
    "Verif.Hoa.C235_kept_partial",
    "Verif.Hoa.C235_next_partial"
   ],
   "note": "refuted: values are kept at the channel but found at the number of the vector; after an empty channel the prediction starts from 0. Partial: channels of vectors are the first ones."
  },
  {
   "property": "C236",
   "status": "proved",
   "theorems": [
    "Verif.Hoa.C236_channel",
    "Verif.Hoa.C236_channels",
    "Verif.Hoa.C236_lists",
    "Verif.Hoa.C236_rest",
    "Verif.Hoa.C236_rests",
    "Verif.Hoa.C236_frame",
    "Verif.Hoa.C236_kept"
   ],
   "note": ""
  },
  {
   "property": "C237",
   "status": "partial",
   "theorems": [
    "Verif.Hoa.C237_refuted",
    "Verif.Hoa.C237_independent_partial"
   ],
   "note": "refuted: a frame that is not independent gives coefficient 5 of 4. Partial: independent frames, with orders sent up to that of the signal."
  },
  {
   "property": "C238",
   "status": "proved",
   "theorems": [
    "Verif.Hoa.C238_independent",
    "Verif.Hoa.C238_gain"
   ],
   "note": "Vectors' elements and predictions are not part of the claim."
  },
  {
   "property": "C239",
   "status": "proved",
   "theorems": [
    "Verif.Igf.C239_kept",
    "Verif.Igf.C239_lines"
   ],
   "note": "Over exact numbers."
  },
  {
   "property": "C240",
   "status": "proved",
   "theorems": [
    "Verif.Hoa.C240_linear",
    "Verif.Hoa.C240_parts",
    "Verif.Hoa.C240_range"
   ],
   "note": "Over exact numbers, for signals that have their gains."
  },
  {
   "property": "C241",
   "status": "proved",
   "theorems": [
    "Verif.Hoa.C241_change",
    "Verif.Hoa.C241_steady"
   ],
   "note": "Over exact numbers; windows are parameters."
  },
  {
   "property": "C242",
   "status": "partial",
   "theorems": [
    "Verif.Hoa.C242_refuted",
    "Verif.Hoa.C242_same_partial"
   ],
   "note": "refuted: entries of the list of directions behind its end stay from earlier frames, and decide whether a direction is faded out. Partial: frames with directions in the same channels."
  },
  {
   "property": "C243",
   "status": "partial",
   "theorems": [
    "Verif.Hoa.C243_vector_to_direction_refuted",
    "Verif.Hoa.C243_direction_to_vector_refuted",
    "Verif.Hoa.C243_ended_partial"
   ],
   "note": "refuted in both directions: from 1 and 1, 7/4 and 15/8 are heard."
  },
  {
   "property": "C244",
   "status": "proved",
   "theorems": [
    "Verif.Hoa.C244_change",
    "Verif.Hoa.C244_steady",
    "Verif.Hoa.C244_handover"
   ],
   "note": "Over exact numbers; windows are parameters."
  },
  {
   "property": "C245",
   "status": "proved",
   "theorems": [
    "Verif.Hoa.C245_ambience",
    "Verif.Hoa.C245_cleared"
   ],
   "note": "Over exact numbers. Coefficients sent twice are part of C231."
  },
  {
   "property": "C246",
   "status": "proved",
   "theorems": [
    "Verif.Hoa.C246_change",
    "Verif.Hoa.C246_steady",
    "Verif.Hoa.C246_sent"
   ],
   "note": "Over exact numbers; windows are parameters."
  },
  {
   "property": "C247",
   "status": "partial",
   "theorems": [
    "Verif.Hoa.C247_refuted",
    "Verif.Hoa.C247_signals_partial"
   ],
   "note": "refuted: signals behind one that is missing are not used. Partial: missing signals last."
  },
  {
   "property": "C248",
   "status": "partial",
   "theorems": [
    "Verif.Hoa.C248_refuted",
    "Verif.Hoa.C248_range_partial"
   ],
   "note": "refuted: all factors are positive and half of them are above 1, as the code is used without the offset of half its range that step and rounding are made for. Partial: below 2, and growing with the code."
  },
  {
   "property": "C249",
   "status": "proved",
   "theorems": [
    "Verif.Ltpf.C249_lags"
   ],
   "note": ""
  },
  {
   "property": "C250",
   "status": "partial",
   "theorems": [
    "Verif.Ltpf.C250_lag_refuted",
    "Verif.Ltpf.C250_causal_refuted",
    "Verif.Ltpf.C250_causal_partial"
   ],
   "note": "refuted: at 16000 Hz the last code is for a lag of 313 while samples for 306 are kept; what is read before them is the end of the input of the frame, and a sample at place 1018 of 1024 changes output 0; proved for frames whose filters are off or have lags from 4 to the largest one kept"
  },
  {
   "property": "C251",
   "status": "proved",
   "theorems": [
    "Verif.Ltpf.C251_frame",
    "Verif.Ltpf.C251_stream"
   ],
   "note": ""
  },
  {
   "property": "C252",
   "status": "proved",
   "theorems": [
    "Verif.Ltpf.C252_steady",
    "Verif.Ltpf.C252_taps"
   ],
   "note": ""
  },
  {
   "property": "C253",
   "status": "proved",
   "theorems": [
    "Verif.Ltpf.C253_off",
    "Verif.Ltpf.off_after"
   ],
   "note": ""
  },
  {
   "property": "C254",
   "status": "partial",
   "theorems": [
    "Verif.Ltpf.C254_limits_partial",
    "Verif.Ltpf.process_silent"
   ],
   "note": "proved for frames without a direct change from one lag or gain to another, with the limits of the state kept from frame to frame; missing: changes with the response to the state taken off, which is not limited by the samples of the input in the same way"
  },
  {
   "property": "C255",
   "status": "proved",
   "theorems": [
    "Verif.Ltpf.C255_no_division_by_zero"
   ],
   "note": ""
  },
  {
   "property": "C256",
   "status": "proved",
   "theorems": [
    "Verif.Resamp.C256_frame",
    "Verif.Resamp.C256_stream",
    "Verif.Resamp.start_follows"
   ],
   "note": "Over exact numbers."
  },
  {
   "property": "C257",
   "status": "partial",
   "theorems": [
    "Verif.Resamp.C257_refuted",
    "Verif.Resamp.C257_last_partial"
   ],
   "note": "refuted for both factors: taps within a group are combined with the wrong neighbours, the response to a single sample is below 0.6 everywhere and has a dip in its middle, while the filter of held samples has one above 0.8; proved for the last sample of each group"
  },
  {
   "property": "C258",
   "status": "proved",
   "theorems": [
    "Verif.Resamp.C258_level",
    "Verif.Resamp.C258_symmetric"
   ],
   "note": "Over exact numbers, with the taps as written."
  },
  {
   "property": "C259",
   "status": "partial",
   "theorems": [
    "Verif.Resamp.C259_no_effect",
    "Verif.Resamp.C259_refuted",
    "Verif.Resamp.C259_plain_partial"
   ],
   "note": "refuted: with resampling the gain is applied to the input of the resampler after it has run, and changes nothing that is put out; proved without resampling"
  },
  {
   "property": "C260",
   "status": "partial",
   "theorems": [
    "Verif.Resamp.C260_refuted",
    "Verif.Resamp.C260_safe_partial"
   ],
   "note": "refuted: with 24 channels at 3/2 the loop, which runs over as many samples as are put out, leaves the array of decoded samples; proved safe for fewer channels, where it runs into rows of other channels"
  },
  {
   "property": "C261",
   "status": "partial",
   "theorems": [
    "Verif.ExtRend.C261_objects",
    "Verif.ExtRend.C261_buffer",
    "Verif.ExtRend.C261_refuted"
   ],
   "note": "refuted for coded values that differences have driven out of the range of their fields: an object raised to 90 degrees is sent below the listener; proved for all others, without audio scene and production metadata, in any buffer that is long enough and in that of 768 bytes up to 28 exclusion sectors"
  },
  {
   "property": "C262",
   "status": "partial",
   "theorems": [
    "Verif.ExtRend.C262_refuted",
    "Verif.ExtRend.C262_fits_partial"
   ],
   "note": "refuted: 16 objects with 15 exclusion sectors each need 1203 bytes; proved for up to 24 objects with at most 28 exclusion sectors in all, without production metadata"
  },
  {
   "property": "C263",
   "status": "partial",
   "theorems": [
    "Verif.ExtRend.C263_refuted"
   ],
   "note": "refuted for all lengths from 1 to 1023: the element is announced with the length of the payload and nothing of it is written, the case label names another number"
  },
  {
   "property": "C264",
   "status": "partial",
   "theorems": [
    "Verif.ExtRend.C264_refuted",
    "Verif.ExtRend.C264_divergence"
   ],
   "note": "refuted for all codes but 0: the value divided by 127 is cut to a whole number, so 127 is sent as 1 and all others as 0"
  },
  {
   "property": "C265",
   "status": "partial",
   "theorems": [
    "Verif.ExtRend.C265_refuted",
    "Verif.ExtRend.C265_intra"
   ],
   "note": "refuted: the flags of all objects are stored in the entry of the first one, so no history lets another object be announced; frames without differences leave all flags alone"
  },
  {
   "property": "C266",
   "status": "partial",
   "theorems": [
    "Verif.ExtRend.C266_refuted",
    "Verif.ExtRend.C266_groups_partial"
   ],
   "note": "refuted: both are taken from the group whose index is the number of the object; proved when the stream begins with one group per object"
  },
  {
   "property": "C267",
   "status": "partial",
   "theorems": [
    "Verif.ExtRend.C267_refuted",
    "Verif.ExtRend.C267_groups_partial"
   ],
   "note": "refuted when a group of objects comes before one of channels: the number of signals and the layout are written before other groups are passed over; proved when groups of channels come first, without downmix and production metadata; the numbers of the signals are always sent as 0"
  },
  {
   "property": "C268",
   "status": "partial",
   "theorems": [
    "Verif.ExtRend.C268_refuted",
    "Verif.ExtRend.C268_layouts_partial",
    "Verif.ExtRend.C268_one_partial"
   ],
   "note": "refuted for loudspeakers at free positions: a loudspeaker at 30 degrees arrives at 150; proved for layouts given by number or list"
  },
  {
   "property": "C269",
   "status": "partial",
   "theorems": [
    "Verif.ExtRend.C269_refuted",
    "Verif.ExtRend.C269_downmix_partial"
   ],
   "note": "refuted when a downmix is for another layout than that of the output: it is counted and not written; proved when all are for the layout of the output, with up to 8 matrices each"
  },
  {
   "property": "C270",
   "status": "partial",
   "theorems": [
    "Verif.ExtRend.C270_refuted",
    "Verif.ExtRend.C270_samples_partial"
   ],
   "note": "refuted for samples of 2^23 and more, which are converted to 32 bits before they are limited; proved for all samples below 2^23 in size, over exact numbers"
  },
  {
   "property": "C271",
   "status": "proved",
   "theorems": [
    "Verif.Hoa.C271_sum",
    "Verif.Hoa.C271_length",
    "Verif.Hoa.C271_weights"
   ],
   "note": "over an exact field; the square root is a function with root x squared = x"
  },
  {
   "property": "C272",
   "status": "partial",
   "theorems": [
    "Verif.Hoa.C272_masked_partial",
    "Verif.Hoa.C272_others"
   ],
   "note": "for data read with the number of the channel, which is so if channels of vectors are the first ones (C234_order_partial); order up to 5"
  },
  {
   "property": "C273",
   "status": "partial",
   "theorems": [
    "Verif.Hoa.C273_refuted",
    "Verif.Hoa.C273_last_partial"
   ],
   "note": "refuted: one array of indices serves all channels; a frame with the entries 5 and 9 in two channels gives both entry 9. Partial: the vector read last"
  },
  {
   "property": "C274",
   "status": "proved",
   "theorems": [
    "Verif.Dmx.C274_roundtrip",
    "Verif.Dmx.C274_below",
    "Verif.Dmx.C274_distinct",
    "Verif.Dmx.C274_length"
   ],
   "note": ""
  },
  {
   "property": "C275",
   "status": "proved",
   "theorems": [
    "Verif.Dmx.C275_partition",
    "Verif.Dmx.C275_kinds",
    "Verif.Dmx.C275_greedy"
   ],
   "note": ""
  },
  {
   "property": "C276",
   "status": "proved",
   "theorems": [
    "Verif.Dmx.C276_determined"
   ],
   "note": "the parameters are layouts of tables for the outputs; inputs that are read from scratch memory are the same in both runs (C281)"
  },
  {
   "property": "C277",
   "status": "proved",
   "theorems": [
    "Verif.Dmx.C277_elements",
    "Verif.Dmx.C277_roundtrip",
    "Verif.Dmx.C277_flags"
   ],
   "note": "places coded with one bit each, no equaliser, tables of at most 274 gains (C279); run length coded places in C284"
  },
  {
   "property": "C278",
   "status": "partial",
   "theorems": [
    "Verif.Dmx.C278_never",
    "Verif.Dmx.C278_refuted",
    "Verif.Dmx.C278_partial"
   ],
   "note": "refuted: the search for the template sets its own copy of the pointer only, so that every matrix coded against a template is given up and, as the result is ignored, the old one kept. Partial: a matrix that is decoded is used"
  },
  {
   "property": "C279",
   "status": "partial",
   "theorems": [
    "Verif.Dmx.C279_members",
    "Verif.Dmx.C279_length",
    "Verif.Dmx.C279_once",
    "Verif.Dmx.C279_refuted",
    "Verif.Dmx.C279_overflow",
    "Verif.Dmx.C279_fits_partial"
   ],
   "note": "refuted: from -47 to 22 dB with steps of 1/4 dB there are 278 gains in an array of 274, and the table is made. Members, length and uniqueness proved; it fits for ranges up to 68 dB, or 136 with coarser steps"
  },
  {
   "property": "C280",
   "status": "partial",
   "theorems": [
    "Verif.Dmx.C280_table",
    "Verif.Dmx.C280_raw",
    "Verif.Dmx.C280_same",
    "Verif.Dmx.C280_refuted",
    "Verif.Dmx.C280_outside",
    "Verif.Dmx.C280_raw_partial"
   ],
   "note": "refuted: the bits after the zeros can point behind the table: an old gain, or memory behind the array. Partial: the coding without the table"
  },
  {
   "property": "C281",
   "status": "partial",
   "theorems": [
    "Verif.Dmx.C281_refuted",
    "Verif.Dmx.C281_more",
    "Verif.Dmx.C281_positions_partial",
    "Verif.Dmx.C281_gains_partial",
    "Verif.Dmx.C281_equalisers_partial"
   ],
   "note": "refuted: loudspeakers at free positions are never copied, and channels beyond the layout have old positions; both change the gains decoded. Partial: positions with as many loudspeakers as channels, gains coded without the table, equalisers not more than channels"
  },
  {
   "property": "C282",
   "status": "proved",
   "theorems": [
    "Verif.Dmx.C282_filters"
   ],
   "note": ""
  },
  {
   "property": "C283",
   "status": "partial",
   "theorems": [
    "Verif.Dmx.C283_refuted",
    "Verif.Dmx.C283_partial"
   ],
   "note": "refuted: the check looks at one channel for each equaliser, so that two equalisers for one channel are refused or taken by old memory. Partial: not more equalisers than channels"
  },
  {
   "property": "C284",
   "status": "partial",
   "theorems": [
    "Verif.Dmx.C284_roundtrip",
    "Verif.Dmx.C284_inside",
    "Verif.Dmx.C284_refuted",
    "Verif.Dmx.C284_places",
    "Verif.Dmx.C284_readback"
   ],
   "note": "refuted: for 256 places and more a run can end behind the array of 576. Below 256 it stays inside, and with at most 16 inputs and layouts of tables there are at most 240 places; the round trip holds for all"
  },
  {
   "property": "C285",
   "status": "proved",
   "theorems": [
    "Verif.Dmx.C285_flags"
   ],
   "note": ""
  },
  {
   "property": "C286",
   "status": "proved",
   "theorems": [
    "Verif.Dmx.C286_bands",
    "Verif.Dmx.C286_table"
   ],
   "note": "the curves and powers of ten are parameters"
  },
  {
   "property": "C287",
   "status": "proved",
   "theorems": [
    "Verif.Ltpf.C287_prediction",
    "Verif.Ltpf.C287_energy"
   ],
   "note": "with exact numbers; the correlation has the floor and the white noise of the code"
  },
  {
   "property": "C288",
   "status": "proved",
   "theorems": [
    "Verif.Ltpf.C288_transition"
   ],
   "note": "frames of at least 48 samples, with exact numbers"
  },
  {
   "property": "C289",
   "status": "proved",
   "theorems": [
    "Verif.ObjRen.C289_law",
    "Verif.ObjRen.C289_flat"
   ],
   "note": "with exact numbers, for triangles that are not flat; C289_flat: for a flat triangle only the first row of the inverse is cleared and two stale rows stay; the triangulation is an input"
  },
  {
   "property": "C290",
   "status": "proved",
   "theorems": [
    "Verif.ObjRen.C290_energy",
    "Verif.ObjRen.C290_unit",
    "Verif.ObjRen.C290_number"
   ],
   "note": "with exact numbers"
  },
  {
   "property": "C291",
   "status": "partial",
   "theorems": [
    "Verif.ObjRen.C291_refuted",
    "Verif.ObjRen.C291_height"
   ],
   "note": "refuted: the spread in height and depth is limited and then not used; C291_height: for every object with a spread in width they change nothing"
  },
  {
   "property": "C292",
   "status": "proved",
   "theorems": [
    "Verif.ObjRen.C292_end",
    "Verif.ObjRen.C292_frame",
    "Verif.ObjRen.C292_step",
    "Verif.ObjRen.C292_first"
   ],
   "note": "with exact numbers"
  },
  {
   "property": "C293",
   "status": "partial",
   "theorems": [
    "Verif.ObjRen.C293_refuted",
    "Verif.ObjRen.C293_first_partial",
    "Verif.ObjRen.C293_full_partial"
   ],
   "note": "refuted: after a frame with metadata in the first sub-frame only, a frame without metadata uses a stale entry for the second sub-frame; what holds: frames with metadata in every sub-frame, and the first sub-frame"
  },
  {
   "property": "C294",
   "status": "partial",
   "theorems": [
    "Verif.ObjRen.C294_refuted",
    "Verif.ObjRen.C294_real",
    "Verif.ObjRen.C294_energy",
    "Verif.ObjRen.C294_equal",
    "Verif.ObjRen.C294_settled"
   ],
   "note": "refuted: the matrix is not cleared before it is set up for a new layout; what holds, in cleared memory: unit columns, energy one and equal shares; in any memory, gains between imaginary loudspeakers of at most 1/100 unless all 20 rounds were made"
  },
  {
   "property": "C295",
   "status": "partial",
   "theorems": [
    "Verif.ObjRen.C295_refuted",
    "Verif.ObjRen.C295_silent",
    "Verif.ObjRen.C295_heard_partial"
   ],
   "note": "refuted: without imaginary loudspeakers the downmix matrix is never set and every object is silent; what holds: with an imaginary loudspeaker an object that gives a gain to a real loudspeaker is heard with its energy"
  },
  {
   "property": "C296",
   "status": "proved",
   "theorems": [
    "Verif.ObjLayout.C296_sort"
   ],
   "note": ""
  },
  {
   "property": "C297",
   "status": "proved",
   "theorems": [
    "Verif.ObjLayout.C297_poles",
    "Verif.ObjLayout.C297_corners"
   ],
   "note": "elevations from -90 to 90 degrees for the corners"
  },
  {
   "property": "C298",
   "status": "partial",
   "theorems": [
    "Verif.ObjLayout.C298_refuted",
    "Verif.ObjLayout.C298_around",
    "Verif.ObjLayout.C298_count"
   ],
   "note": "refuted for layouts without a loudspeaker below 45 degrees; proved for all others"
  },
  {
   "property": "C299",
   "status": "partial",
   "theorems": [
    "Verif.ObjLayout.C299_refuted_symmetry",
    "Verif.ObjLayout.C299_refuted_place",
    "Verif.ObjLayout.C299_behind_partial"
   ],
   "note": "refuted: the loop over the gaps goes on over the loudspeakers it has appended; what holds: without inner gaps of more than 160 degrees all imaginary loudspeakers of the ring are behind the last real one and before the first one of the next turn"
  },
  {
   "property": "C300",
   "status": "proved",
   "theorems": [
    "Verif.ObjLayout.C300_corners"
   ],
   "note": ""
  },
  {
   "property": "C301",
   "status": "partial",
   "theorems": [
    "Verif.ObjLayout.C301_added",
    "Verif.ObjLayout.C301_ranges",
    "Verif.ObjLayout.C301_refuted",
    "Verif.ObjLayout.C301_front_partial",
    "Verif.ObjLayout.C301_back_partial"
   ],
   "note": "refuted: the place is the middle of the nominal positions, so that with loudspeakers at 20 and 21 degrees the imaginary one is below all four. When it is added is proved; it lies within the four if the lower ones are at most at 17.5 degrees"
  },
  {
   "property": "C302",
   "status": "proved",
   "theorems": [
    "Verif.ObjLayout.C302_clean"
   ],
   "note": ""
  },
  {
   "property": "C303",
   "status": "proved",
   "theorems": [
    "Verif.HoaRen.C303_blocks",
    "Verif.HoaRen.C303_length"
   ],
   "note": ""
  },
  {
   "property": "C304",
   "status": "proved",
   "theorems": [
    "Verif.HoaRen.C304_response",
    "Verif.HoaRen.C304_constant",
    "Verif.HoaRen.C304_equal"
   ],
   "note": ""
  },
  {
   "property": "C305",
   "status": "proved",
   "theorems": [
    "Verif.HoaRen.C305_stable"
   ],
   "note": ""
  },
  {
   "property": "C306",
   "status": "partial",
   "theorems": [
    "Verif.HoaRen.C306_refuted",
    "Verif.HoaRen.C306_highest_partial"
   ],
   "note": "refuted: every channel gets the filter of the order of the content, so that a constant in channel 0 is multiplied by a ratio below one to this power. The channels of the highest order are right"
  },
  {
   "property": "C307",
   "status": "proved",
   "theorems": [
    "Verif.HoaRen.C307_clip",
    "Verif.HoaRen.C307_render",
    "Verif.HoaRen.C307_refused",
    "Verif.HoaRen.C307_filters"
   ],
   "note": ""
  },
  {
   "property": "C308",
   "status": "proved",
   "theorems": [
    "Verif.HoaRen.C308_levels"
   ],
   "note": ""
  },
  {
   "property": "C309",
   "status": "partial",
   "theorems": [
    "Verif.Mp4.C309_refuted",
    "Verif.Mp4.C309_groups_partial",
    "Verif.Mp4.C309_safe_partial"
   ],
   "note": "refuted: 17 to 127 groups are written beyond the table of 16. Up to 16 groups no box is undefined, and groups without languages are read back"
  },
  {
   "property": "C310",
   "status": "partial",
   "theorems": [
    "Verif.Mp4.C310_refuted",
    "Verif.Mp4.C309_groups_partial"
   ],
   "note": "refuted: 8 of the 24 bits are read. Groups without languages are read back"
  },
  {
   "property": "C311",
   "status": "partial",
   "theorems": [
    "Verif.Mp4.C311_refuted",
    "Verif.Mp4.C311_two_partial"
   ],
   "note": "refuted: every group has two elements and only the first two groups get a first element, so that later ones have those of the first group. Two groups are right"
  },
  {
   "property": "C312",
   "status": "partial",
   "theorems": [
    "Verif.Mp4.C312_refuted",
    "Verif.Mp4.C312_switches_partial"
   ],
   "note": "refuted: 9 to 127 switch groups are written beyond the table of 8. Up to 8 are read back"
  },
  {
   "property": "C313",
   "status": "partial",
   "theorems": [
    "Verif.Mp4.C313_refuted",
    "Verif.Mp4.C313_conditions_refuted",
    "Verif.Mp4.C313_lost_refuted",
    "Verif.Mp4.C313_presets_partial"
   ],
   "note": "refuted: 9 to 127 presets and 17 to 127 conditions are written beyond the tables, and of 128 to 255 conditions none is read. Up to 8 presets of up to 16 conditions are read back"
  },
  {
   "property": "C314",
   "status": "partial",
   "theorems": [
    "Verif.Mp4.C314_text_refuted",
    "Verif.Mp4.C314_refuted",
    "Verif.Mp4.C314_switch_refuted",
    "Verif.Mp4.C314_safe_partial"
   ],
   "note": "refuted: texts of groups and presets are always the character 0, those of switch groups bits, and 128 descriptions of groups are written beyond the table. Up to 127 no box is undefined"
  },
  {
   "property": "C315",
   "status": "proved",
   "theorems": [
    "Verif.ObjRen.C315_choice"
   ],
   "note": "for gains below 10000000, the start of the search"
  },
  {
   "property": "C316",
   "status": "proved",
   "theorems": [
    "Verif.ObjRen.C316_cone",
    "Verif.ObjRen.C316_edge"
   ],
   "note": "over the reals; at 90 degrees the tangent is a huge number in C"
  },
  {
   "property": "C317",
   "status": "proved",
   "theorems": [
    "Verif.ObjRen.C317_level",
    "Verif.ObjRen.C317_height",
    "Verif.ObjRen.C317_mirror"
   ],
   "note": "over the reals"
  },
  {
   "property": "C318",
   "status": "proved",
   "theorems": [
    "Verif.ObjRen.C318_blend",
    "Verif.ObjRen.C318_narrow",
    "Verif.ObjRen.C318_wide",
    "Verif.ObjRen.C318_same"
   ],
   "note": "over the reals; gains that are not numbers are excluded"
  },
  {
   "property": "C319",
   "status": "proved",
   "theorems": [
    "Verif.HoaPerm.C319_order",
    "Verif.HoaPerm.C320_close"
   ],
   "note": "over the reals; CICP layouts"
  },
  {
   "property": "C320",
   "status": "proved",
   "theorems": [
    "Verif.HoaPerm.C320_same",
    "Verif.HoaPerm.C320_near",
    "Verif.HoaPerm.C320_close"
   ],
   "note": "over the reals; CICP layouts"
  },
  {
   "property": "C321",
   "status": "partial",
   "theorems": [
    "Verif.HoaPerm.C321_refuted",
    "Verif.HoaPerm.C321_small_partial"
   ],
   "note": "refuted: layout 13 has 24 loudspeakers, three positions of each are written into a table of 49; proved for all other layouts"
  },
  {
   "property": "C322",
   "status": "partial",
   "theorems": [
    "Verif.HoaPerm.C322_refuted",
    "Verif.HoaPerm.C322_silent_partial",
    "Verif.HoaPerm.C322_unchanged",
    "Verif.HoaPerm.C322_product"
   ],
   "note": "refuted: the kinds of the loudspeakers are taken from the CICP index even when the layout is given by single loudspeakers, and an error of the multiplication is lost; proved when the kinds are those of the layout"
  },
  {
   "property": "C323",
   "status": "proved",
   "theorems": [
    "Verif.Props.Tdac.C323_frame"
   ],
   "note": "over the reals; windows of which the squares add up to 1; not after frames of the time domain"
  },
  {
   "property": "C324",
   "status": "proved",
   "theorems": [
    "Verif.Props.Tdac.C324_signal"
   ],
   "note": "over the reals; the values after the transform; windows of which the squares add up to 1"
  },
  {
   "property": "C325",
   "status": "partial",
   "theorems": [
    "Verif.Props.Tdac.C325_refuted",
    "Verif.Props.Tdac.C325_flipped",
    "Verif.Props.Tdac.C325_kept_partial"
   ],
   "note": "refuted: kernel type 2 is taken for one with the sign of type 0, the end of the block comes out with the wrong sign; proved for the other types"
  },
  {
   "property": "C326",
   "status": "partial",
   "theorems": [
    "Verif.Props.Tdac.C326_refuted",
    "Verif.Props.Tdac.C326_as_zero",
    "Verif.Props.Tdac.C323_frame"
   ],
   "note": "refuted: types 1 and 2 are windowed like type 0, so what is kept is always symmetric; proved for types 0 and 3 (C323_frame)"
  },
  {
   "property": "C327",
   "status": "proved",
   "theorems": [
    "Verif.Props.Imdct.C327_cosine",
    "Verif.Props.Imdct.C327_sine"
   ],
   "note": "over the reals, with exact angles; impeghd_rad2_cplx_ifft is taken to be the inverse Fourier transform; kernel types 0 and 3"
  },
  {
   "property": "C328",
   "status": "proved",
   "theorems": [
    "Verif.Props.Imdct.C328_cosine",
    "Verif.Props.Imdct.C328_sine"
   ],
   "note": "as C327"
  },
  {
   "property": "C329",
   "status": "proved",
   "theorems": [
    "Verif.Props.Imdct.C329_signal"
   ],
   "note": "as C324 and C327; kernel types 0 and 3"
  },
  {
   "property": "C330",
   "status": "proved",
   "theorems": [
    "Verif.Props.ImdctMixed.C330_cosine",
    "Verif.Props.ImdctMixed.C330_sine"
   ],
   "note": "over the reals, with exact angles; impeghd_rad2_cplx_ifft is taken to be the inverse Fourier transform; the value 0 (type 2) or the last value (type 1) counts once, not half"
  },
  {
   "property": "C331",
   "status": "partial",
   "theorems": [
    "Verif.Props.ImdctMixed.C331_refuted",
    "Verif.Props.ImdctMixed.C330_cosine",
    "Verif.Props.ImdctMixed.C330_sine"
   ],
   "note": "refuted: the table of angles is that of 1024 values for all sizes; proved for long blocks (C330)"
  },
  {
   "property": "C332",
   "status": "proved",
   "theorems": [
    "Verif.Props.ImdctMixed.C332_cosine",
    "Verif.Props.ImdctMixed.C332_sine"
   ],
   "note": "as C330; the forward transform halves the value 0 (type 2) or the last value (type 1)"
  },
  {
   "property": "C333",
   "status": "proved",
   "theorems": [
    "Verif.Props.ImdctMixed.C333_signal"
   ],
   "note": "as C324, C327 and C330; C325, C326 and C331 say what goes wrong for the other changes"
  },
  {
   "property": "C334",
   "status": "proved",
   "theorems": [
    "Verif.Props.Fac.C334_eight"
   ],
   "note": "over the reals, for 1024 samples and the even symmetry, before the bass post filter; the FAC signal is a parameter"
  },
  {
   "property": "C335",
   "status": "partial",
   "theorems": [
    "Verif.Props.Fac.C335_refuted",
    "Verif.Props.Fac.C335_written",
    "Verif.Props.Fac.C335_ends_partial",
    "Verif.Props.Fac.C335_kept"
   ],
   "note": "refuted: the memcpy counts n_flat_ls in bytes, so that samples 224 to 511 are those the buffer of the output held before; proved: exactly what is written, that the first 224 and the last 256 samples are right, and what is kept"
  },
  {
   "property": "C336",
   "status": "partial",
   "theorems": [
    "Verif.Props.Fac.C336_refuted",
    "Verif.Props.Fac.C336_exchanged",
    "Verif.Props.Fac.C335_ends_partial"
   ],
   "note": "refuted: the two halves of the FAC signal are exchanged (the short blocks of C334 use the right order); proved: with the halves given in the other order the aliasing is cancelled, and the last 256 samples are right"
  },
  {
   "property": "C337",
   "status": "proved",
   "theorems": [
    "Verif.Props.Bpf.C337_filtered",
    "Verif.Props.Bpf.C337_accepted",
    "Verif.Props.Bpf.C337_refused"
   ],
   "note": "over the reals, for whole numbers of subframes; whether indices stay inside of the buffers is not part of the model; half the lag is used when the signal is similar to itself half a lag ago (normalised correlation above 0.95), the gain is at most 1 and the root of the ratio of the energies, and where there is no signal one lag after only the one before is used"
  },
  {
   "property": "C338",
   "status": "proved",
   "theorems": [
    "Verif.Props.Bpf.C338_off"
   ],
   "note": "as C337"
  },
  {
   "property": "C339",
   "status": "proved",
   "theorems": [
    "Verif.Props.Bpf.C339_periodic"
   ],
   "note": "as C337"
  },
  {
   "property": "C340",
   "status": "partial",
   "theorems": [
    "Verif.Props.Bpf.C340_refuted",
    "Verif.Props.Bpf.C340_ahead_partial"
   ],
   "note": "refuted: with a full band part the sum is multiplied by two inside of the loop over the coefficients, so that the coefficients count up to 2^25 times; refuted for every low pass filter whose last coefficient is not 0; proved without a full band part"
  },
  {
   "property": "C341",
   "status": "proved",
   "theorems": [
    "Verif.Props.LpdBpf.C341_fades"
   ],
   "note": "over the reals, for frames of 1024 samples"
  },
  {
   "property": "C342",
   "status": "proved",
   "theorems": [
    "Verif.Props.LpdBpf.C342_off"
   ],
   "note": "as C341"
  },
  {
   "property": "C343",
   "status": "partial",
   "theorems": [
    "Verif.Props.LpdBpf.C343_refuted",
    "Verif.Props.LpdBpf.C343_channels_partial"
   ],
   "note": "refuted: 1536 samples are copied from a row of 1024, so that the last of the 24 channels reads behind the array; proved: for all other channels there is an outcome, and it does not depend on the samples of other channels"
  },
  {
   "property": "C344",
   "status": "proved",
   "theorems": [
    "Verif.Props.LpdBpf.C344_filtered",
    "Verif.Props.LpdBpf.C344_refused"
   ],
   "note": "over the reals, for frames of 1024 samples; best: least sum of squares plus a millionth of the square of the gain"
  },
  {
   "property": "C345",
   "status": "proved",
   "theorems": [
    "Verif.Props.HoaSvd.C345_sorted"
   ],
   "note": ""
  },
  {
   "property": "C346",
   "status": "proved",
   "theorems": [
    "Verif.Props.HoaSvd.C346_decomposed"
   ],
   "note": "over the reals; the decomposition itself (impeghd_hoa_dsvd) is a parameter that is right for the matrix at hand; when the result fits into its arrays, see C347"
  },
  {
   "property": "C347",
   "status": "partial",
   "theorems": [
    "Verif.Props.HoaSvd.C347_refuted",
    "Verif.Props.HoaSvd.C347_fits_partial"
   ],
   "note": "refuted: the matrix U has room for 24 * 24 elements, but 49 * 22 are written for order 6 and 22 loudspeakers; proved: matrices of at most 576 elements fit; the scratch buffers are not modelled"
  },
  {
   "property": "C348",
   "status": "partial",
   "theorems": [
    "Verif.Props.HoaSvd.C348_refuted",
    "Verif.Props.HoaSvd.C348_inverse_partial"
   ],
   "note": "refuted: the limit comes from the second singular value, not from the first one, so that a second value of 1/1000000 is inverted next to a first one of 1; proved: when all values that are not 0 are above that limit, P of A satisfies A P A = A and P A P = P; for at least two columns and when the elements of S beside the diagonal, which are never written, are 0"
  },
  {
   "property": "C349",
   "status": "partial",
   "theorems": [
    "Verif.Props.HoaSvd.C349_refuted",
    "Verif.Props.HoaSvd.C349_kept_partial"
   ],
   "note": "refuted: the first value below the limit is still kept; proved: all values above the limit are kept, and at most one below"
  },
  {
   "property": "C350",
   "status": "proved",
   "theorems": [
    "Verif.Props.HoaSvd.C350_energy",
    "Verif.Props.HoaSvd.C350_matrix"
   ],
   "note": "over the reals, for the part after the decomposition and before rows for LFEs are added"
  },
  {
   "property": "C351",
   "status": "proved",
   "theorems": [
    "Verif.Props.HoaPos.C351_spherical",
    "Verif.Props.HoaPos.C351_cartesian",
    "Verif.Props.HoaPos.C351_back"
   ],
   "note": "over the reals"
  },
  {
   "property": "C352",
   "status": "partial",
   "theorems": [
    "Verif.Props.HoaPos.C352_refuted",
    "Verif.Props.HoaPos.C352_unit_partial"
   ],
   "note": "refuted: points given by x, y and z keep their distance; proved for positions given by distance and angles; all positions that the decoder sets up (impeghd_hoa_ren_space_positions_init_with_param and init_with_surround) are of that kind"
  },
  {
   "property": "C353",
   "status": "proved",
   "theorems": [
    "Verif.Props.HoaPos.C353_plane",
    "Verif.Props.HoaPos.C353_types"
   ],
   "note": "over the reals; between 6.9999 and 7.0001 degrees the rounding of the angles decides and nothing is said"
  },
  {
   "property": "C354",
   "status": "proved",
   "theorems": [
    "Verif.Props.HoaPos.C354_poles",
    "Verif.Props.HoaPos.C354_solid"
   ],
   "note": "over the reals; that the layout is not plane is proved for distances above 0; the size of the array is not part of the model"
  },
  {
   "property": "C355",
   "status": "proved",
   "theorems": [
    "Verif.Props.HoaPos.C355_inclinations",
    "Verif.Props.HoaPos.C355_types",
    "Verif.Props.HoaPos.C355_distance"
   ],
   "note": "over the reals"
  },
  {
   "property": "C356",
   "status": "proved",
   "theorems": [
    "Verif.Props.HoaPan.C356_waves"
   ],
   "note": "over the reals, for loudspeakers given by distance and angles, as all that the decoder sets up are"
  },
  {
   "property": "C357",
   "status": "proved",
   "theorems": [
    "Verif.Props.HoaPan.C357_equations",
    "Verif.Props.HoaPan.C357_least",
    "Verif.Props.HoaPan.C357_avoid"
   ],
   "note": "over the reals, for positions given by distance and angles and without clipping of the height, as the decoder calls it; the pseudo-inverse is a parameter that inverts the two matrices at hand, see C346, C348 and C359; sizes of arrays are not modelled"
  },
  {
   "property": "C358",
   "status": "partial",
   "theorems": [
    "Verif.Props.HoaPan.C358_refuted",
    "Verif.Props.HoaPan.C358_norm_partial"
   ],
   "note": "refuted: gains that are all below a millionth are multiplied by infinity; proved when one gain is at least a millionth; the decoder itself does not ask for the normalisation"
  },
  {
   "property": "C359",
   "status": "proved",
   "theorems": [
    "Verif.Props.HoaPan.C359_invertible"
   ],
   "note": "over the reals; stated as: a pseudo-inverse of the matrices is an inverse"
  },
  {
   "property": "C360",
   "status": "partial",
   "theorems": [
    "Verif.Props.HoaPanMem.C360_refuted",
    "Verif.Props.HoaPanMem.C360_prepared_partial",
    "Verif.Props.HoaPanMem.C360_inside_partial"
   ],
   "note": "refuted: impeghd_hoa_ren_simple_mtrx_init_with_size clears 49 * 49 elements of matrices that have 24 * 24, which reaches into the four matrices behind them; proved: after all calls the matrices hold what they should, and nothing behind the structure's member svd_a.w_s is written"
  },
  {
   "property": "C361",
   "status": "proved",
   "theorems": [
    "Verif.Props.ObjSortIdx.C361_sorted"
   ],
   "note": ""
  },
  {
   "property": "C362",
   "status": "partial",
   "theorems": [
    "Verif.Props.ObjHull.C362_refuted",
    "Verif.Props.ObjHull.C362_once_partial"
   ],
   "note": "refuted: for 15 or more visible triangles, of the 44 that there may be, the 44 elements of edge_params do not hold three edges of each; whether a layout has so many visible triangles is not shown; proved for up to 14"
  },
  {
   "property": "C363",
   "status": "proved",
   "theorems": [
    "Verif.Props.ObjHull.C363_initial",
    "Verif.Props.ObjHull.C363_closed"
   ],
   "note": "the projections, which decide what is visible and how triangles are turned, are arguments of the model; that triangles at the vertex itself are visible is a hypothesis; it is not shown that the visible triangles are connected, so a side that ends in the new vertex may belong to four triangles"
  },
  {
   "property": "C364",
   "status": "proved",
   "theorems": [
    "Verif.Props.ObjProj.C364_height",
    "Verif.Props.ObjProj.C364_flat",
    "Verif.Props.ObjProj.C364_corner",
    "Verif.Props.ObjProj.C364_turned"
   ],
   "note": "real numbers: rounding is not modelled"
  },
  {
   "property": "C365",
   "status": "proved",
   "theorems": [
    "Verif.Props.ObjProj.C365_hull",
    "Verif.Props.ObjProj.C365_outside",
    "Verif.Props.ObjProj.C365_fits"
   ],
   "note": "real numbers: rounding is not modelled; closed means that a side belongs to an even number of triangles, and to none or two if it does not end in the added vertex; vertices added earlier are not shown to stay behind all triangles"
  }
 ]
}
