{
 "claims": [
  {
   "property": "C01",
   "status": "proved",
   "theorems": [
    "Atsc.C01_stream_roundtrip",
    "Atsc.C01_decompress_after_roundtrip"
   ],
   "note": ""
  },
  {
   "property": "C02",
   "status": "proved",
   "theorems": [
    "Atsc.C02_truncation_rejected"
   ],
   "note": ""
  },
  {
   "property": "C03",
   "status": "proved",
   "theorems": [
    "Atsc.C03_trailing_bytes_ignored",
    "Atsc.C03_accepted_input_extends"
   ],
   "note": ""
  },
  {
   "property": "C04",
   "status": "proved",
   "theorems": [
    "Atsc.C04_accepted_is_supported",
    "Atsc.C04_newer_version_rejected",
    "Atsc.C04_bad_magic_rejected"
   ],
   "note": ""
  },
  {
   "property": "C05",
   "status": "proved",
   "theorems": [
    "Atsc.C05_frame_count",
    "Atsc.C05_count_wraps",
    "Atsc.C05_debug_overflow",
    "Atsc.C05_refuted"
   ],
   "note": "Exact in both build profiles; the expectation that the count is always the number of frames is refuted (256 chunks are reported as 0)."
  },
  {
   "property": "C06",
   "status": "proved",
   "theorems": [
    "Atsc.C06_decompress_concat",
    "Atsc.C06_later_chunk_keeps_prefix"
   ],
   "note": ""
  },
  {
   "property": "C07",
   "status": "proved",
   "theorems": [
    "Atsc.C07_chunk_count",
    "Atsc.C07_stream_count",
    "Atsc.C07_auto_needs_bound",
    "Atsc.C07_empty_chunk_panics"
   ],
   "note": "For chunks without NaN (the CLI removes NaN) below 2^62 samples; Auto only exists through the bounded entry point; empty chunks panic."
  },
  {
   "property": "C08",
   "status": "proved",
   "theorems": [
    "Atsc.C08_injective"
   ],
   "note": ""
  },
  {
   "property": "C09",
   "status": "proved",
   "theorems": [
    "Atsc.C09_u64_roundtrip",
    "Atsc.C09_u32_roundtrip",
    "Atsc.C09_u16_roundtrip",
    "Atsc.C09_i16_roundtrip",
    "Atsc.C09_i32_roundtrip",
    "Atsc.C09_i64_roundtrip",
    "Atsc.C09_size",
    "Atsc.C09_signed_size",
    "Atsc.C09_truncated_rejected",
    "Atsc.C09_signed_truncated_rejected",
    "Atsc.C09_in_range",
    "Atsc.C09_wide_rejected"
   ],
   "note": ""
  },
  {
   "property": "C10",
   "status": "proved",
   "theorems": [
    "Atsc.C10_exact",
    "Atsc.C10_rle_lossless",
    "Atsc.C10_rle_exact_if_fractional",
    "Atsc.C10_refuted_large",
    "Atsc.C10_refuted_tiny"
   ],
   "note": "C10_exact is an equivalence over all finite chunks; the expectation of losslessness outside it is refuted."
  },
  {
   "property": "C11",
   "status": "proved",
   "theorems": [
    "Atsc.C11_rle_runs",
    "Atsc.C11_rle_bounded_same"
   ],
   "note": ""
  },
  {
   "property": "C12",
   "status": "proved",
   "theorems": [
    "Atsc.C12_exact",
    "Atsc.C12_constant_lossless",
    "Atsc.C12_refuted_large"
   ],
   "note": "C12_exact is an equivalence over all finite constant chunks; refuted outside it (2^64)."
  },
  {
   "property": "C13",
   "status": "proved",
   "theorems": [
    "Atsc.C13_noop_nearest",
    "Atsc.C13_noop_within_half",
    "Atsc.C13_noop_integers"
   ],
   "note": ""
  },
  {
   "property": "C14",
   "status": "proved",
   "theorems": [
    "Atsc.C14_extremes",
    "Atsc.C14_empty_panics"
   ],
   "note": ""
  },
  {
   "property": "C15",
   "status": "proved",
   "theorems": [
    "Atsc.C15_exact",
    "Atsc.C15_bitdepth_holds",
    "Atsc.C15_refuted"
   ],
   "note": "C15_exact is an equivalence over all finite chunks; refuted outside it."
  },
  {
   "property": "C16",
   "status": "proved",
   "theorems": [
    "Atsc.C16_positions_plain",
    "Atsc.C16_positions_bounded",
    "Atsc.C16_search_skipped"
   ],
   "note": ""
  },
  {
   "property": "C17",
   "status": "proved",
   "theorems": [
    "Atsc.C17_range_plain",
    "Atsc.C17_range_bounded"
   ],
   "note": ""
  },
  {
   "property": "C18",
   "status": "proved",
   "theorems": [
    "Atsc.C18_terminates",
    "Atsc.C18_reported_error",
    "Atsc.C18_constant",
    "Atsc.C18_refuted_large",
    "Atsc.C18_exact",
    "Atsc.C18_same",
    "Atsc.C18_which_bounds"
   ],
   "note": "C18_terminates, C18_exact and C18_which_bounds for every NaN-free chunk and every bound; C18_refuted_large refutes the stronger expectation."
  },
  {
   "property": "C19",
   "status": "proved",
   "theorems": [
    "Atsc.C19_reconstructed",
    "Atsc.C19_stored_all",
    "Atsc.C19_small_chunks_stored",
    "Atsc.C19_refuted_decimals",
    "Atsc.C19_exact"
   ],
   "note": "C19_exact says which samples come back; C19_reconstructed: for the reconstructed crates, without assumption."
  },
  {
   "property": "C20",
   "status": "proved",
   "theorems": [
    "Atsc.C20_range_plain",
    "Atsc.C20_range_bounded"
   ],
   "note": ""
  },
  {
   "property": "C21",
   "status": "proved",
   "theorems": [
    "Atsc.C21_positions_plain",
    "Atsc.C21_positions_bounded",
    "Atsc.C21_beyond_bounded",
    "Atsc.C21_beyond_plain"
   ],
   "note": "Both sides of the limit proved: faithful up to 124415 (with a bound) / 131071 samples; beyond it, with a lawful transform, wrong for every such chunk."
  },
  {
   "property": "C22",
   "status": "proved",
   "theorems": [
    "Atsc.C22_padding",
    "Atsc.C22_window",
    "Atsc.C22_exact"
   ],
   "note": "C22_exact for every NaN-free chunk that is not one value in single precision and every bound that is searched for (C24_which_bounds); C22_window the same for bounds up to 10^6."
  },
  {
   "property": "C23",
   "status": "proved",
   "theorems": [
    "Atsc.C23_largest_bounded",
    "Atsc.C23_largest_plain",
    "Atsc.C23_fft_set"
   ],
   "note": ""
  },
  {
   "property": "C24",
   "status": "proved",
   "theorems": [
    "Atsc.C24_terminates",
    "Atsc.C24_reported_error",
    "Atsc.C24_refuted_collapsed",
    "Atsc.C24_exact",
    "Atsc.C24_which_bounds"
   ],
   "note": "Termination, and the exact report for every NaN-free chunk and every bound (C24_exact, C24_which_bounds); C24_refuted_collapsed refutes the stronger expectation."
  },
  {
   "property": "C25",
   "status": "proved",
   "theorems": [
    "Atsc.C25_succeeds",
    "Atsc.C25_any_bound",
    "Atsc.C25_level_rejected",
    "Atsc.C25_nan_bound_panics"
   ],
   "note": ""
  },
  {
   "property": "C26",
   "status": "proved",
   "theorems": [
    "Atsc.C26_smallest",
    "Atsc.C26_sampled",
    "Atsc.C26_constant_smallest"
   ],
   "note": "For a chunk shorter than the level's sample size; for longer ones the selection uses the first samples only (C26_sampled)."
  },
  {
   "property": "C27",
   "status": "proved",
   "theorems": [
    "Atsc.C27_constant_iff"
   ],
   "note": ""
  },
  {
   "property": "C28",
   "status": "partial",
   "theorems": [
    "Atsc.C28_lossless_partial",
    "Atsc.C28_five_decimals_partial",
    "Atsc.C28_refuted_collapsed",
    "Atsc.C28_refuted_decimals",
    "Atsc.C28_refuted_sampled",
    "Atsc.C28_collapsed",
    "Atsc.C28_exact"
   ],
   "note": "Exact for every finite in-range chunk tried as a whole (C28_exact): lossless iff all samples are equal, or single precision tells two apart and a Polynomial frame holding all samples (if chosen) loses none of them at five decimals. Collapsed chunks are always a 10-byte FFT frame (C28_collapsed). The full wording is false: refuted for f32-collapsed chunks, for more than 5 decimals and for chunks longer than the level's sample."
  },
  {
   "property": "C29",
   "status": "proved",
   "theorems": [
    "Atsc.C29_never_negative",
    "Atsc.C29_mse_self",
    "Atsc.C29_mae_self",
    "Atsc.C29_mape_self"
   ],
   "note": ""
  },
  {
   "property": "C30",
   "status": "proved",
   "theorems": [
    "Atsc.C30_length_mismatch",
    "Atsc.C30_calculate_error"
   ],
   "note": ""
  },
  {
   "property": "C31",
   "status": "proved",
   "theorems": [
    "Atsc.C31_mape_nan_on_zero",
    "Atsc.C31_mape_nan_iff",
    "Atsc.C31_nan_fails_filter"
   ],
   "note": ""
  },
  {
   "property": "C32",
   "status": "proved",
   "theorems": [
    "Atsc.C32_clamped",
    "Atsc.C32_accuracy",
    "Atsc.C32_decimals_unchanged",
    "Atsc.C32_overflow",
    "Atsc.C32_every"
   ],
   "note": "C32_clamped for all x; C32_every for every finite x inside the limits: accurate when x times 10^d is a number, else the upper or lower limit; C32_accuracy the same with a magnitude limit 2^900."
  },
  {
   "property": "C33",
   "status": "proved",
   "theorems": [
    "Atsc.C33_is_decomposable",
    "Atsc.C33_next_size",
    "Atsc.C33_next_size_le_double"
   ],
   "note": ""
  },
  {
   "property": "C34",
   "status": "proved",
   "theorems": [
    "Atsc.C34_prev_power_of_two",
    "Atsc.C34_more_than_half",
    "Atsc.C34_zero"
   ],
   "note": ""
  },
  {
   "property": "C35",
   "status": "proved",
   "theorems": [
    "Atsc.C35_partition",
    "Atsc.C35_no_chunk_iff"
   ],
   "note": ""
  },
  {
   "property": "C36",
   "status": "proved",
   "theorems": [
    "Atsc.C36_clean",
    "Atsc.C36_members",
    "Atsc.C36_idempotent"
   ],
   "note": ""
  },
  {
   "property": "C37",
   "status": "proved",
   "theorems": [
    "Atsc.C37_add_get",
    "Atsc.C37_total",
    "Atsc.C37_debug_limit"
   ],
   "note": ""
  },
  {
   "property": "C38",
   "status": "proved",
   "theorems": [
    "Atsc.C38_bulk",
    "Atsc.C38_same_file"
   ],
   "note": ""
  },
  {
   "property": "C39",
   "status": "proved",
   "theorems": [
    "Atsc.C39_round_trip",
    "Atsc.C39_round_trip_added",
    "Atsc.C39_limit",
    "Atsc.C39_rejects",
    "Atsc.C39_accepts_only_marked",
    "Atsc.C39_exact_alignment",
    "Atsc.C39_size"
   ],
   "note": "C39_exact_alignment: the file is read back iff the reader's buffer is aligned (8 bytes; 4 when empty), otherwise the reader panics; the code leaves the alignment to the allocator. C39_size: an accepted file has a length divisible by 4."
  },
  {
   "property": "C40",
   "status": "proved",
   "theorems": [
    "Atsc.C40_update",
    "Atsc.C40_refusal_safe",
    "Atsc.C40_release_never_panics"
   ],
   "note": ""
  },
  {
   "property": "C41",
   "status": "proved",
   "theorems": [
    "Atsc.C41_extremes",
    "Atsc.C41_accepts"
   ],
   "note": ""
  },
  {
   "property": "C42",
   "status": "proved",
   "theorems": [
    "Atsc.C42_count",
    "Atsc.C42_release_total",
    "Atsc.C42_refuted_duplicates"
   ],
   "note": "All strictly increasing histories. Repeated timestamps: C42_refuted_duplicates here, exact bounds in C97."
  },
  {
   "property": "C43",
   "status": "proved",
   "theorems": [
    "Atsc.C43_timestamps"
   ],
   "note": ""
  },
  {
   "property": "C44",
   "status": "proved",
   "theorems": [
    "Atsc.C44_exact",
    "Atsc.C44_lookup",
    "Atsc.C44_points",
    "Atsc.C44_not_last",
    "Atsc.C44_refuted_single",
    "Atsc.C44_refuted_late",
    "Atsc.C44_refuted_wrap"
   ],
   "note": "C44_exact and C44_lookup give the complete behaviour for indexes of a day; that every indexed timestamp is found is refuted, also beyond one day (C44_refuted_wrap)."
  },
  {
   "property": "C45",
   "status": "proved",
   "theorems": [
    "Atsc.C45_first_segment",
    "Atsc.C45_ends",
    "Atsc.C45_refuted_later_segments",
    "Atsc.C45_exact_day"
   ],
   "note": "C45_exact_day is an exact formula for every sample; refuted as 'always the recorded time'."
  },
  {
   "property": "C46",
   "status": "proved",
   "theorems": [
    "Atsc.C46_regular"
   ],
   "note": ""
  },
  {
   "property": "C47",
   "status": "proved",
   "theorems": [
    "Atsc.C47_previous",
    "Atsc.C47_next_last_gap",
    "Atsc.C47_refuted_next",
    "Atsc.C47_outside",
    "Atsc.C47_exact"
   ],
   "note": "C47_exact and C47_outside give both lookups at every time; get_next_sample as the next sample is refuted in every gap but the last."
  },
  {
   "property": "C48",
   "status": "proved",
   "theorems": [
    "Atsc.C48_one_segment",
    "Atsc.C48_segments",
    "Atsc.C48_not_empty_sound",
    "Atsc.C48_refuted_touch"
   ],
   "note": "Exact for one and for several segments; refuted at the last instant of a segment when there are several."
  },
  {
   "property": "C49",
   "status": "proved",
   "theorems": [
    "Atsc.C49_flush_load",
    "Atsc.C49_file",
    "Atsc.C49_continue",
    "Atsc.C49_reachable",
    "Atsc.C49_location"
   ],
   "note": ""
  },
  {
   "property": "C50",
   "status": "proved",
   "theorems": [
    "Atsc.C50_day_no_overflow",
    "Atsc.C50_refuted_duplicates",
    "Atsc.C50_queries_no_overflow"
   ],
   "note": "All of the statement: building (C50_day_no_overflow) and queries (C50_queries_no_overflow), for strictly increasing days. C50_refuted_duplicates shows that strictness is needed."
  },
  {
   "property": "C51",
   "status": "proved",
   "theorems": [
    "Atsc.C51_day_seconds",
    "Atsc.C51_invalid_panics",
    "Atsc.C51_start_of_day",
    "Atsc.C51_decompose"
   ],
   "note": ""
  },
  {
   "property": "C52",
   "status": "proved",
   "theorems": [
    "Atsc.C52_with_headers",
    "Atsc.C52_no_headers",
    "Atsc.C52_count",
    "Atsc.C52_missing_columns",
    "Atsc.C52_bad_header",
    "Atsc.C52_unparsable",
    "Atsc.C52_parse_error_real",
    "Atsc.C52_ragged_panics",
    "Atsc.C52_rectangular_total"
   ],
   "note": "Also proved: rows of unequal length and records that are not UTF-8 do not give an error but panic (C52_ragged_panics); a header that is not UTF-8 is an error."
  },
  {
   "property": "C53",
   "status": "proved",
   "theorems": [
    "Atsc.C53_accepted",
    "Atsc.C53_refuted_empty",
    "Atsc.C53_exact"
   ],
   "note": "C53_exact is an equivalence; the file of an input without finite samples is rejected (C53_refuted_empty)."
  },
  {
   "property": "C54",
   "status": "proved",
   "theorems": [
    "Atsc.C54_end_to_end",
    "Atsc.C54_rle_equal",
    "Atsc.C54_noop_nearest",
    "Atsc.C54_chunkwise"
   ],
   "note": ""
  },
  {
   "property": "C55",
   "status": "proved",
   "theorems": [
    "Atsc.C55_exact",
    "Atsc.C55_ok_complete",
    "Atsc.C55_no_failure",
    "Atsc.C55_refuted_abort"
   ],
   "note": "C55_exact gives exactly what a directory run does for every listing and every pattern of failures and panics; that a failing file does not stop the others is refuted."
  },
  {
   "property": "C56",
   "status": "proved",
   "theorems": [
    "Atsc.C56_ingest",
    "Atsc.C56_sorted",
    "Atsc.C56_release_total"
   ],
   "note": ""
  },
  {
   "property": "C57",
   "status": "proved",
   "theorems": [
    "Atsc.C57_join",
    "Atsc.C57_read",
    "Atsc.C57_too_many_channels",
    "Atsc.C57_convert",
    "Atsc.C57_validate"
   ],
   "note": "Also: more than four channels panic; --validate fails exactly when a NaN is present."
  },
  {
   "property": "C58",
   "status": "partial",
   "theorems": [
    "Atsc.C58_cli_away_partial",
    "Atsc.C58_fft_bound_partial",
    "Atsc.C58_refuted_fft_zero",
    "Atsc.C58_refuted_fft_rounds",
    "Atsc.C58_cli_fft_partial",
    "Atsc.C58_poly_bound_partial",
    "Atsc.C58_refuted_zero",
    "Atsc.C58_cli_partial"
   ],
   "note": "Partial: the bound holds unless the MAPE is NaN, or the round limit is hit (then everything is stored / 23 rounds used); refuted when a zero sample is reproduced as zero (NaN error ends the search). C58_cli_partial lifts the Polynomial/IDW bound to the command line, C58_cli_away_partial shows that for samples at least 0.01 away from zero no excluded case is left but NaN from the library; C58_cli_fft_partial lifts the FFT bound (bound plus 0.0012, times the ratio of the extended chunk's length; exactly which cases are excluded is in FftMeets)."
  },
  {
   "property": "C59",
   "status": "proved",
   "theorems": [
    "Atsc.C59_header_only",
    "Atsc.C59_refuted_truncation",
    "Atsc.C59_short_write_silent",
    "Atsc.C59_subsequence"
   ],
   "note": "C59_subsequence: any cut of either write, any samples. Refuted: that a cut file is always refused; the bare header panics, short writes are silent."
  },
  {
   "property": "C60",
   "status": "proved",
   "theorems": [
    "Atsc.C60_no_expansion"
   ],
   "note": ""
  },
  {
   "property": "C61",
   "status": "proved",
   "theorems": [
    "Atsc.C61_effects"
   ],
   "note": ""
  },
  {
   "property": "C62",
   "status": "proved",
   "theorems": [
    "Atsc.C62_round_trip",
    "Atsc.C62_rle_values",
    "Atsc.C62_refuted_no_finite",
    "Atsc.C62_exact",
    "Atsc.C62_replaces_original"
   ],
   "note": "C62_exact: the second run succeeds exactly when some sample is finite; C62_round_trip what it then writes. 2^28 samples is the most the writer can write (C39)."
  },
  {
   "property": "C63",
   "status": "proved",
   "theorems": [
    "Atsc.C63_exact",
    "Atsc.C63_values",
    "Atsc.C63_regular",
    "Atsc.C63_refuted_day_lost",
    "Atsc.C63_refuted_irregular",
    "Atsc.C63_refuted_repeated",
    "Atsc.C63_refuted_nonfinite"
   ],
   "note": "C63_exact says exactly what is read back for samples of one day in increasing seconds; the plain round trip is refuted in four ways."
  },
  {
   "property": "C64",
   "status": "proved",
   "theorems": [
    "Atsc.C64_decoder_spectrum"
   ],
   "note": "For every accepted frame with distinct positions in the first half (what the encoder guarantees, C21)."
  },
  {
   "property": "C65",
   "status": "proved",
   "theorems": [
    "Atsc.C65_complete_spectrum",
    "Atsc.C65_all_frequencies",
    "Atsc.C65_bounded_short"
   ],
   "note": "The laws about the FFT library (Hermitian spectrum of a real series, transforms inverse up to eps, norm separating zero) are explicit hypotheses; an example shows a two-point library meets them. The heap is modelled and proved."
  },
  {
   "property": "C66",
   "status": "proved",
   "theorems": [
    "Atsc.C66_plain_length",
    "Atsc.C66_refuted_long"
   ],
   "note": "Below 128 samples the lengths agree, from 128 on never (C66_refuted_long: up to 131071 samples)."
  },
  {
   "property": "C67",
   "status": "proved",
   "theorems": [
    "Atsc.C67_mae",
    "Atsc.C67_mse",
    "Atsc.C67_mape",
    "Atsc.C67_nmse",
    "Atsc.C67_smape"
   ],
   "note": "The exact formulas over the rationals are in Spec/Metrics.lean; the code's left-to-right float sums are within (c n) units of roundoff of them."
  },
  {
   "property": "C68",
   "status": "proved",
   "theorems": [
    "Atsc.C68_range",
    "Atsc.C68_single",
    "Atsc.C68_refuted_full_error",
    "Atsc.C68_refuted_scale"
   ],
   "note": "Range for all finite inputs; total loss: exactly 1 for one sample, about 1/n for n (C68_refuted_full_error, C68_refuted_scale refute 'always 1')."
  },
  {
   "property": "C69",
   "status": "proved",
   "theorems": [
    "Atsc.C69_call",
    "Atsc.C69_file",
    "Atsc.C69_tags"
   ],
   "note": "C69_call at the API for every call, C69_file/C69_tags at the command line for valid arguments. Vocabulary in Spec/Request.lean."
  },
  {
   "property": "C70",
   "status": "proved",
   "theorems": [
    "Atsc.C70_cut",
    "Atsc.C70_bytes",
    "Atsc.C70_refuted_lines",
    "Atsc.C70_refuted_digit",
    "Atsc.C70_newline"
   ],
   "note": "Any cut point, characters and bytes. That a cut file is always refused is refuted."
  },
  {
   "property": "C71",
   "status": "proved",
   "theorems": [
    "Atsc.C71_cut_never_uncompresses",
    "Atsc.C71_only_whole",
    "Atsc.C71_any_file"
   ],
   "note": "For all files and all cut points; C71_any_file covers files not written by the compressor."
  },
  {
   "property": "C72",
   "status": "proved",
   "theorems": [
    "Atsc.C72_effects",
    "Atsc.C72_refused_untouched",
    "Atsc.C72_round_trip_regular",
    "Atsc.C72_refuted_no_index",
    "Atsc.C72_refuted_overwrites",
    "Atsc.C72_refuted_stale",
    "Atsc.C72_refuted_partial_output",
    "Atsc.C72_round_trip_exact"
   ],
   "note": "Effects, refusal, round trip with the exact times; four stronger expectations refuted."
  },
  {
   "property": "C73",
   "status": "proved",
   "theorems": [
    "Atsc.C73_call",
    "Atsc.C73_auto",
    "Atsc.C73_file",
    "Atsc.C73_refuted_noop",
    "Atsc.C73_refuted_rle"
   ],
   "note": "All bounds proved; that a file is never larger than the raw samples is refuted for Noop (any length) and RLE."
  },
  {
   "property": "C74",
   "status": "proved",
   "theorems": [
    "Atsc.C74_frame",
    "Atsc.C74_stream",
    "Atsc.C74_refuted_noop",
    "Atsc.C74_small_file_many_samples",
    "Atsc.C74_frame_exact",
    "Atsc.C74_exact"
   ],
   "note": "C74_exact says how many samples any bytes give; C74_refuted_noop and C74_small_file_many_samples refute the stronger expectations."
  },
  {
   "property": "C75",
   "status": "proved",
   "theorems": [
    "Atsc.C75_noop_chunk",
    "Atsc.C75_noop_file",
    "Atsc.C75_noop_runs",
    "Atsc.C75_rle_values",
    "Atsc.C75_refuted_rle_bytes"
   ],
   "note": "Noop: the second file is identical. RLE: the values are the same; the bytes may differ (refuted by -0.0)."
  },
  {
   "property": "C76",
   "status": "proved",
   "theorems": [
    "Atsc.C76_refuted_after_all",
    "Atsc.C76_refuted_tail_all",
    "Atsc.C76_previous_inside",
    "Atsc.C76_next_reported",
    "Atsc.C76_refuted_next",
    "Atsc.C76_refuted_tail",
    "Atsc.C76_refuted_after",
    "Atsc.C76_next_exact",
    "Atsc.C76_previous_exact"
   ],
   "note": "Both lookups characterised at every time (C76_previous_exact, C76_next_exact); the plain expectation is refuted for every day history."
  },
  {
   "property": "C77",
   "status": "proved",
   "theorems": [
    "Atsc.C77_swap",
    "Atsc.C77_refuted_relative",
    "Atsc.C77_refuted_zero",
    "Atsc.C77_zero_mae",
    "Atsc.C77_zero_mse",
    "Atsc.C77_zero_smape",
    "Atsc.C77_zero_nmse"
   ],
   "note": "Symmetry of MSE, MAE, SMAPE, and what zero says for MAE, MSE, SMAPE, NMSE (MAPE: C78); refuted: symmetry of MAPE and NMSE, 'zero means equal'."
  },
  {
   "property": "C78",
   "status": "proved",
   "theorems": [
    "Atsc.C78_zero_iff"
   ],
   "note": ""
  },
  {
   "property": "C79",
   "status": "proved",
   "theorems": [
    "Atsc.C79_auto",
    "Atsc.C79_refuted_auto",
    "Atsc.C79_fft",
    "Atsc.C79_points",
    "Atsc.C79_poly",
    "Atsc.C79_refuted_bytes",
    "Atsc.C79_others"
   ],
   "note": "FFT bytes, Polynomial/IDW sample counts, Polynomial/IDW bytes in fixed width, auto when every candidate keeps the larger bound; the rest refuted."
  },
  {
   "property": "C80",
   "status": "proved",
   "theorems": [
    "Atsc.C80_plan",
    "Atsc.C80_file",
    "Atsc.C80_count"
   ],
   "note": "For every compression that succeeds, in any build profile."
  },
  {
   "property": "C81",
   "status": "proved",
   "theorems": [
    "Atsc.C81_frame",
    "Atsc.C81_edit",
    "Atsc.C81_append"
   ],
   "note": "For accepted arguments; the compressed bytes fit a 64-bit address space."
  },
  {
   "property": "C82",
   "status": "proved",
   "theorems": [
    "Atsc.C82_no_trace"
   ],
   "note": ""
  },
  {
   "property": "C83",
   "status": "proved",
   "theorems": [
    "Atsc.C83_reindex",
    "Atsc.C83_stable"
   ],
   "note": ""
  },
  {
   "property": "C84",
   "status": "proved",
   "theorems": [
    "Atsc.C84_previous",
    "Atsc.C84_sample",
    "Atsc.C84_previous_inside",
    "Atsc.C84_refuted_next",
    "Atsc.C84_refuted_time"
   ],
   "note": "get_sample and get_this_or_previous for all pairs of times; refuted for get_this_or_next and get_time."
  },
  {
   "property": "C85",
   "status": "proved",
   "theorems": [
    "Atsc.C85_stream",
    "Atsc.C85_index",
    "Atsc.C85_batches",
    "Atsc.C85_metric"
   ],
   "note": ""
  },
  {
   "property": "C86",
   "status": "proved",
   "theorems": [
    "Atsc.C86_rerun",
    "Atsc.C86_refuted_self",
    "Atsc.C86_refuted_directory"
   ],
   "note": "One file, for any content the crash left in the output; refuted when the input is its own output and for directories."
  },
  {
   "property": "C87",
   "status": "proved",
   "theorems": [
    "Atsc.C87_uncompress_again",
    "Atsc.C87_outputs_passed_over",
    "Atsc.C87_uncompress_again_grown",
    "Atsc.C87_refuted_compress"
   ],
   "note": "-u: for every directory content, listing, and listing grown by the outputs; refuted for compression."
  },
  {
   "property": "C88",
   "status": "proved",
   "theorems": [
    "Atsc.C88_file",
    "Atsc.C88_exact",
    "Atsc.C88_refuted_skip",
    "Atsc.C88_no_input",
    "Atsc.C88_directory",
    "Atsc.C88_directory_exact",
    "Atsc.C88_refuted_shared",
    "Atsc.C88_status"
   ],
   "note": "Single files exactly (C88_exact, C88_status), directories exactly (C88_directory_exact); exceptions refuted: -u on non-BRRO files, inputs sharing an output."
  },
  {
   "property": "C89",
   "status": "partial",
   "theorems": [
    "Atsc.C89_away_partial",
    "Atsc.C89_factor",
    "Atsc.C89_chunk_partial",
    "Atsc.C89_default_partial",
    "Atsc.C89_refuted_padding",
    "Atsc.C89_refuted_level",
    "Atsc.C89_refuted_large",
    "Atsc.C89_levels_partial"
   ],
   "note": "Proved at the call and at the command line with the ratio of the extended to the real chunk length as a factor (1 below 128 samples, at most 32/27: C89_factor) and 1e-7 of slack; missing and refuted: exactly the requested percentage (padding), levels above 0, values of magnitude 2^63 or more. C89_away_partial: for samples of magnitude at least 1/100 every chunk comes back within pct percent times 32/27 (times 1 below 128 samples) plus 0.0006. C89_levels_partial: at every level each chunk comes back as promised by auto (KeptWithin) or by the compressor it chose (ChunkMeets, FftMeets)."
  },
  {
   "property": "C90",
   "status": "proved",
   "theorems": [
    "Atsc.C90_mean",
    "Atsc.C90_fractional",
    "Atsc.C90_narrowest"
   ],
   "note": "Samples outside the range are covered by C15_refuted and C10_refuted_tiny."
  },
  {
   "property": "C91",
   "status": "proved",
   "theorems": [
    "Atsc.C91_stretches",
    "Atsc.C91_half",
    "Atsc.C91_file",
    "Atsc.C91_day_file",
    "Atsc.C91_at_least",
    "Atsc.C91_refuted_readme"
   ],
   "note": "Proved for both builds; the example of vsri/README.md is reproduced beside the theorems. C91_refuted_readme is about the README's 5-bytes claim, not this property."
  },
  {
   "property": "C92",
   "status": "proved",
   "theorems": [
    "Atsc.C92_layout",
    "Atsc.C92_determines",
    "Atsc.C92_refuted_header_count",
    "Atsc.C92_field_ignored"
   ],
   "note": "Complete layout; the README's claim about bytes 4..7 is refuted for every file."
  },
  {
   "property": "C93",
   "status": "proved",
   "theorems": [
    "Atsc.C93_column",
    "Atsc.C93_no_header",
    "Atsc.C93_same_as_wbro",
    "Atsc.C93_refuted_one_field",
    "Atsc.C93_refuted_bad_record"
   ],
   "note": "Byte level, with a concrete model of the csv crate's tokeniser (and, in C106_column, of its numbers). Outside the quantifier: --fields without a comma and bad records panic (C93_refuted_*)."
  },
  {
   "property": "C94",
   "status": "proved",
   "theorems": [
    "Atsc.C94_reads",
    "Atsc.C94_unambiguous",
    "Atsc.C94_writable",
    "Atsc.C94_refuted_empty_cell"
   ],
   "note": "About the modelled tokeniser of the csv crate; an empty bare cell of a one-column file is a blank line and is skipped (C94_refuted_empty_cell)."
  },
  {
   "property": "C95",
   "status": "proved",
   "theorems": [
    "Atsc.C95_real",
    "Atsc.C95_real_files",
    "Atsc.C95_reads",
    "Atsc.C95_bad_record",
    "Atsc.C95_refuted_bad_header",
    "Atsc.C95_csv_roundtrip",
    "Atsc.C95_files",
    "Atsc.C95_empty"
   ],
   "note": "C95_real, C95_real_files: no assumption on number formatting (the real formats of C106 meet NumText.Lawful, csvNumText_lawful); every NaN is read back as the quiet NaN. Refuted for other files: a header that is not UTF-8 makes csv-compressor take the columns by position."
  },
  {
   "property": "C96",
   "status": "proved",
   "theorems": [
    "Atsc.Wav.C96_converts",
    "Atsc.Wav.C96_effects",
    "Atsc.Wav.C96_refused",
    "Atsc.Wav.C96_refuted_unreadable",
    "Atsc.Wav.C96_channels"
   ],
   "note": "Whole program over an arbitrary WAV reader; the remark in brackets (losslessness fails) is C96_refuted_unreadable."
  },
  {
   "property": "C97",
   "status": "proved",
   "theorems": [
    "Atsc.C97_counts",
    "Atsc.C97_release_total",
    "Atsc.C97_refuted_three",
    "Atsc.C97_timestamps"
   ],
   "note": "Bounds and shape proved for every non-decreasing history; the remark in brackets (not all points are counted) is C97_refuted_three, for every history with a threefold timestamp that is not at its end."
  },
  {
   "property": "C98",
   "status": "proved",
   "theorems": [
    "Atsc.C98_refuted_output_csv",
    "Atsc.C98_refuted_median",
    "Atsc.C98_level",
    "Atsc.C98_error",
    "Atsc.C98_level_short",
    "Atsc.C98_uncompress",
    "Atsc.C98_csv_options"
   ],
   "note": "Proved over every environment. Refuted: the documented effects of --output-csv (it has none) and of -e 50 (no median filter)."
  },
  {
   "property": "C99",
   "status": "proved",
   "theorems": [
    "Atsc.C99_size",
    "Atsc.C99_refuted_size",
    "Atsc.C99_ignored"
   ],
   "note": "Exact sizes; that a frame records its own size is refuted for every payload of at most 20 or at least 38 bytes."
  },
  {
   "property": "C100",
   "status": "proved",
   "theorems": [
    "Atsc.C100_undisturbed",
    "Atsc.C100_file",
    "Atsc.C100_leftover",
    "Atsc.C100_directory",
    "Atsc.C100_directory_effects",
    "Atsc.C100_refuted_short",
    "Atsc.C100_refuted_destroys",
    "Atsc.C100_csv_undisturbed",
    "Atsc.C100_csv_compress",
    "Atsc.C100_csv_uncompress",
    "Atsc.C100_refuted_csv"
   ],
   "note": "atsc (files, directories) and csv-compressor; three stronger expectations refuted."
  },
  {
   "property": "C101",
   "status": "proved",
   "theorems": [
    "Atsc.C101_header_ignored",
    "Atsc.C101_id_ignored",
    "Atsc.C101_size_ignored",
    "Atsc.C101_file",
    "Atsc.C101_refuted"
   ],
   "note": "The fields without influence, for all files; that other damage is noticed is refuted by one changed byte."
  },
  {
   "property": "C102",
   "status": "proved",
   "theorems": [
    "Atsc.C102_bounded",
    "Atsc.C102_fft_bounded",
    "Atsc.C102_poly_bounded",
    "Atsc.C102_fft_plain",
    "Atsc.C102_unbounded"
   ],
   "note": "All parts proved for every compressor, data, bound and external transform."
  },
  {
   "property": "C103",
   "status": "proved",
   "theorems": [
    "Atsc.C103_panics",
    "Atsc.C103_value",
    "Atsc.C103_integers",
    "Atsc.C103_negative",
    "Atsc.C103_saturates",
    "Atsc.C103_large",
    "Atsc.C103_monotone",
    "Atsc.C103_refuted_floor"
   ],
   "note": "All parts proved; C103_refuted_floor shows that the stronger reading (integer part of the exact product) is false."
  },
  {
   "property": "C104",
   "status": "proved",
   "theorems": [
    "Atsc.C104_exact",
    "Atsc.C104_first",
    "Atsc.C104_stop",
    "Atsc.C104_missing",
    "Atsc.C104_order",
    "Atsc.C104_ranges",
    "Atsc.C104_numbers",
    "Atsc.C104_refused",
    "Atsc.C104_csv_exact",
    "Atsc.C104_csv_ends",
    "Atsc.C104_csv_ranges",
    "Atsc.C104_csv_main",
    "Atsc.C104_wav_exact",
    "Atsc.C104_wav_refused",
    "Atsc.C104_refuted_readme_default"
   ],
   "note": "Proved over a model of clap 4.5's parsing (external, see DESIGN.md) applied to the argument tables of the code; the specification (Spec/CommandLine.lean) is a manual of each program and a grammar of the spellings."
  },
  {
   "property": "C105",
   "status": "proved",
   "theorems": [
    "Atsc.C105_exact",
    "Atsc.C105_others",
    "Atsc.C105_unambiguous",
    "Atsc.C105_location"
   ],
   "note": "For the model of load on bytes (UTF-8 decoding checked against Lean's encoder)."
  },
  {
   "property": "C106",
   "status": "proved",
   "theorems": [
    "Atsc.C106_close",
    "Atsc.C106_column",
    "Atsc.C106_exact",
    "Atsc.C106_unambiguous",
    "Atsc.C106_representable",
    "Atsc.C106_shown_reads",
    "Atsc.C106_shown_nan",
    "Atsc.C106_fewest",
    "Atsc.C106_seventeen",
    "Atsc.C106_shown",
    "Atsc.C106_shown_special",
    "Atsc.C106_timestamp",
    "Atsc.C106_timestamp_back"
   ],
   "note": "Exact for reading (both directions) and writing, all texts and doubles. The number formats are those of Rust's dec2flt, ryu and the csv crate, modelled by what they compute."
  },
  {
   "property": "C107",
   "status": "proved",
   "theorems": [
    "Atsc.C107_session",
    "Atsc.C107_rle",
    "Atsc.C107_refuted_no_finite",
    "Atsc.C107_words"
   ],
   "note": "Proved from the words of the command line to the bytes of the files; C107_words reads the two shortest command lines; C107_refuted_no_finite is the exact failure without finite samples."
  },
  {
   "property": "C108",
   "status": "proved",
   "theorems": [
    "Atsc.Wav.C108_undisturbed",
    "Atsc.Wav.C108_faults",
    "Atsc.Wav.C108_stops",
    "Atsc.Wav.C108_refuted_unopened",
    "Atsc.Wav.C108_command"
   ],
   "note": "C108_faults for one run after argument parsing, C108_command from the words of the command line; C108_undisturbed ties the model with failures to the undisturbed one of C96; C108_refuted_unopened is the exception."
  },
  {
   "property": "C109",
   "status": "proved",
   "theorems": [
    "Atsc.C109_shown",
    "Atsc.C109_shown_special",
    "Atsc.C109_entry",
    "Atsc.C109_list",
    "Atsc.C109_tells",
    "Atsc.C109_quiet",
    "Atsc.C109_unchanged",
    "Atsc.C109_file",
    "Atsc.C109_output",
    "Atsc.C109_stopped",
    "Atsc.C109_directory",
    "Atsc.C109_directory_separate",
    "Atsc.C109_command"
   ],
   "note": "C109_shown/C109_entry/C109_shown_special: each sample; C109_list/C109_tells: the list; C109_file/C109_directory/C109_output: the program; C109_quiet/C109_unchanged/C109_command: nothing else changes; C109_stopped: a closed pipe. The Debug format of f64 is Rust's (1.81), written down from its source."
  },
  {
   "property": "C110",
   "status": "proved",
   "theorems": [
    "Atsc.C110_output",
    "Atsc.C110_every",
    "Atsc.C110_none",
    "Atsc.C110_same",
    "Atsc.C110_shared",
    "Atsc.C110_entry",
    "Atsc.C110_distinct",
    "Atsc.C110_model",
    "Atsc.C110_command",
    "Atsc.C110_file",
    "Atsc.C110_directory",
    "Atsc.C110_directory_done",
    "Atsc.C110_csv"
   ],
   "note": "C110_output/every/none/same/shared: the path an output gets, for every path text; C110_entry, C110_file, C110_directory, C110_directory_done: runs of atsc; C110_csv: csv-compressor from its command line (what may change). C110_distinct, C110_model, C110_command: paths as text and the stem/extension pairs of the rest of the model are the same thing. Unix paths; links and different spellings of one path are not resolved."
  },
  {
   "property": "C111",
   "status": "proved",
   "theorems": [
    "Atsc.C111_session",
    "Atsc.C111_rle",
    "Atsc.C111_refuted_no_finite"
   ],
   "note": "C111_session for every compressor (the number of samples; their accuracy is that of decompressData of compressData, see C54/C62), C111_rle for the values; C111_refuted_no_finite is the refuted expectation."
  },
  {
   "property": "C112",
   "status": "proved",
   "theorems": [
    "Atsc.C112_alone",
    "Atsc.C112_always",
    "Atsc.C112_progress",
    "Atsc.C112_completes",
    "Atsc.C112_bounded",
    "Atsc.C112_in_turn",
    "Atsc.C112_interrupted",
    "Atsc.C112_refuted_shared",
    "Atsc.C112_refuted_example"
   ],
   "note": "C112_alone, C112_in_turn and C112_always over all schedules of Model/Concurrent; C112_progress, C112_completes and C112_bounded for termination; C112_interrupted for a stop at any moment; C112_refuted_shared and C112_refuted_example for runs sharing an output."
  },
  {
   "property": "C113",
   "status": "proved",
   "theorems": [
    "Atsc.C113_while",
    "Atsc.C113_samples",
    "Atsc.C113_refuted_old",
    "Atsc.C113_refuted_example"
   ],
   "note": "C113_while for all schedules and any files; C113_samples adds that the finished file does uncompress (C53, C54); C113_refuted_old and C113_refuted_example for an older compressed file."
  },
  {
   "property": "C114",
   "status": "proved",
   "theorems": [
    "Atsc.C114_lossless",
    "Atsc.C114_whole",
    "Atsc.C114_reconstructed",
    "Atsc.C114_session",
    "Atsc.C114_refuted",
    "Atsc.C114_words",
    "Atsc.C114_file"
   ],
   "note": "C114_lossless (call), C114_whole (whole numbers up to 2^24), C114_session (the two command lines), C114_reconstructed (no assumption on the interpolation left). C114_refuted shows both conditions are needed."
  },
  {
   "property": "C115",
   "status": "proved",
   "theorems": [
    "Atsc.C115_alone",
    "Atsc.C115_files",
    "Atsc.C115_always",
    "Atsc.C115_progress",
    "Atsc.C115_bounded",
    "Atsc.C115_completes",
    "Atsc.C115_in_turn",
    "Atsc.C115_interrupted",
    "Atsc.C115_refuted_in_place"
   ],
   "note": "C115_files (a run alone), C115_alone, C115_always, C115_progress, C115_bounded, C115_completes, C115_in_turn, C115_interrupted; C115_refuted_in_place is the exception in brackets. The listing read_dir yields is given, whatever it is."
  },
  {
   "property": "C116",
   "status": "proved",
   "theorems": [
    "Atsc.Bro.C116_format",
    "Atsc.Bro.C116_frame",
    "Atsc.Bro.C116_uncompress",
    "Atsc.Bro.C116_unambiguous",
    "Atsc.Bro.C116_noop",
    "Atsc.Bro.C116_constant",
    "Atsc.Bro.C116_flat_fft",
    "Atsc.Bro.C116_flat_poly",
    "Atsc.Bro.C116_rle",
    "Atsc.Bro.C116_poly",
    "Atsc.Bro.C116_fft"
   ],
   "note": "C116_format (accepted exactly if of the grammar), C116_unambiguous, C116_frame and C116_uncompress (which frames and files can be uncompressed), and what comes out: C116_noop, C116_constant, C116_rle, C116_fft, C116_poly, C116_flat_fft, C116_flat_poly. The grammar is in Spec/BroFile.lean and mentions no decoder. The interpolation libraries are taken not to panic."
  },
  {
   "property": "C117",
   "status": "proved",
   "theorems": [
    "Atsc.C117_file",
    "Atsc.C117_directory",
    "Atsc.C117_refuted_self",
    "Atsc.C117_csv",
    "Atsc.C117_csv_killed",
    "Atsc.C117_refuted_csv_self",
    "Atsc.Wav.C117_wav",
    "Atsc.Wav.C117_wav_killed",
    "Atsc.Wav.C117_refuted_unopened"
   ],
   "note": "The counterpart of C100/C108 (what a failed run leaves) and C86 (killed runs). Proved from: the undisturbed run depends only on the contents of its inputs, and a disturbed run changes nothing but files the undisturbed run overwrites. Directory listings are taken to be the same in every run (what a changed listing does is C86/C87)."
  },
  {
   "property": "C118",
   "status": "proved",
   "theorems": [
    "Atsc.C118_alone",
    "Atsc.C118_always",
    "Atsc.C118_progress",
    "Atsc.C118_bounded",
    "Atsc.C118_completes",
    "Atsc.C118_in_turn",
    "Atsc.C118_atsc",
    "Atsc.C118_wav",
    "Atsc.C118_csv",
    "Atsc.C118_atsc_files",
    "Atsc.C118_csv_files",
    "Atsc.C118_wav_files",
    "Atsc.C118_refuted_shared",
    "Atsc.C118_refuted_example"
   ],
   "note": "C118_alone, C118_always, C118_progress, C118_bounded, C118_completes, C118_in_turn: programs as sequences of reads and writes, interleaved piece by piece; C118_atsc, C118_csv, C118_wav: a program that runs alone does exactly what the models of the three command lines do (C110, C111, C106), so the theorems are about those; C118_atsc_files, C118_csv_files, C118_wav_files: which files it touches; C118_refuted_shared, C118_refuted_example: the condition is needed."
  },
  {
   "property": "C119",
   "status": "proved",
   "theorems": [
    "Atsc.C119_index",
    "Atsc.C119_series",
    "Atsc.C119_compress",
    "Atsc.C119_frames",
    "Atsc.C119_samples",
    "Atsc.C119_programs"
   ],
   "note": "C119_index, C119_series, C119_compress: every build-dependent operation; C119_frames, C119_samples: exactly when compression differs; C119_programs: whole runs of the three programs (by C118_atsc, C118_csv, C118_wav these are the runs of the command-line models)."
  },
  {
   "property": "C120",
   "status": "proved",
   "theorems": [
    "Atsc.C120_always",
    "Atsc.C120_status",
    "Atsc.C120_finished",
    "Atsc.C120_in_turn",
    "Atsc.C120_completes",
    "Atsc.C120_refuted_in_place",
    "Atsc.C120_refuted_example"
   ],
   "note": "About any programs made of reads and writes (Model/Programs.lean), so about the three programs by C118_atsc, C118_csv, C118_wav; what they touch is C118_atsc_files, C118_csv_files, C118_wav_files. The condition is needed: C120_refuted_in_place, C120_refuted_example."
  },
  {
   "property": "C121",
   "status": "proved",
   "theorems": [
    "Atsc.C121_range",
    "Atsc.C121_count",
    "Atsc.C121_continues",
    "Atsc.C121_rle",
    "Atsc.C121_noop",
    "Atsc.C121_refuted_single",
    "Atsc.C121_refuted_noop",
    "Atsc.C121_hull"
   ],
   "note": "C121_range, C121_hull (all seven compressors), C121_count, C121_continues, C121_rle, C121_noop; C121_refuted_single and C121_refuted_noop show why the range is stated up to single precision and without Noop."
  },
  {
   "property": "C122",
   "status": "proved",
   "theorems": [
    "Atsc.C122_limit",
    "Atsc.C122_exact",
    "Atsc.C122_day",
    "Atsc.C122_twice",
    "Atsc.C122_silent",
    "Atsc.C122_files"
   ],
   "note": "C122_exact: release builds, exact condition; C122_limit, C122_day, C122_twice: any build (a debug build may also panic at an i32 overflow while compressing, C50). C122_silent: the second compressing succeeds in a release build. C122_files: at the level of files."
  },
  {
   "property": "C123",
   "status": "proved",
   "theorems": [
    "Atsc.C123_rle_fraction",
    "Atsc.C123_rle_nan",
    "Atsc.C123_poly_range",
    "Atsc.C123_fft_range",
    "Atsc.C123_auto_rle",
    "Atsc.C123_refuted_nan_first",
    "Atsc.C123_refuted_infinity",
    "Atsc.C123_refuted_auto"
   ],
   "note": "RLE, Polynomial/IDW/FFT ranges and Auto, plus three refuted expectations; the number of samples is C07, Noop on NaN/infinities is C13"
  },
  {
   "property": "C124",
   "status": "proved",
   "theorems": [
    "Atsc.C124_smallest",
    "Atsc.C124_lossless_iff",
    "Atsc.C124_session",
    "Atsc.C124_refuted"
   ],
   "note": "C124_smallest, C124_session: what comes back; C124_lossless_iff: when nothing is lost; C124_refuted: the expectation in brackets."
  },
  {
   "property": "C125",
   "status": "proved",
   "theorems": [
    "Atsc.C125_chunk",
    "Atsc.C125_exact",
    "Atsc.C125_bits",
    "Atsc.C125_file",
    "Atsc.C125_refuted"
   ],
   "note": "C125_chunk: one chunk, bit for bit; C125_exact, C125_bits: exactly when all bits come back; C125_file: the file through two command lines; C125_refuted: the expectation in brackets."
  },
  {
   "property": "C126",
   "status": "proved",
   "theorems": [
    "Atsc.C126_kept",
    "Atsc.C126_reconstructed",
    "Atsc.C126_cli",
    "Atsc.C126_refuted_between"
   ],
   "note": "every step-th sample, the first and the last come back to five decimals from Polynomial and IDW, library and command line; under Ext.Interpolates, and without it for the reconstructed crates; refuted for the samples in between"
  },
  {
   "property": "C127",
   "status": "proved",
   "theorems": [
    "Atsc.C127_bits",
    "Atsc.C127_file",
    "Atsc.C127_again",
    "Atsc.C127_refuted"
   ],
   "note": "through compress_data/decompress_data and two command lines, as an equivalence; idempotence; refuted for halves and negative zeros"
  },
  {
   "property": "C128",
   "status": "proved",
   "theorems": [
    "Atsc.C128_bits",
    "Atsc.C128_file",
    "Atsc.C128_refuted"
   ],
   "note": "through compress_data/decompress_data and two command lines, for the six compressors besides noop; as an equivalence for fft; refuted for negative zeros and FFT without single precision"
  }
 ]
}