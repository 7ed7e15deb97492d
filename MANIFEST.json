{
 "claims": [
  {
   "property": "C01",
   "status": "proved",
   "theorems": [
    "Verif.Interleaver.C01_round_trip",
    "Verif.Interleaver.C01_pointwise"
   ],
   "note": ""
  },
  {
   "property": "C41",
   "status": "partial",
   "theorems": [
    "Verif.Interleaver.C01_reordering_simd",
    "Verif.Interleaver.C01_reordering_single_wave",
    "Verif.Interleaver.C01_reordering_waves_ub"
   ],
   "note": "proved when the wave is a SIMD register or the whole batch, shown to have undefined behaviour otherwise (finding)"
  },
  {
   "property": "C02",
   "status": "partial",
   "theorems": [
    "Verif.Interleaver.C02_no",
    "Verif.Interleaver.C02_row_column",
    "Verif.Interleaver.C02_column_row",
    "Verif.Interleaver.C02_row_column_inverse",
    "Verif.Interleaver.C02_random",
    "Verif.Interleaver.C02_golden",
    "Verif.Interleaver.C02_random_column",
    "Verif.Interleaver.C02_random_column_stays",
    "Verif.Interleaver.C02_lte",
    "Verif.Interleaver.C02_ccsds",
    "Verif.Interleaver.C02_rcs1",
    "Verif.Interleaver.C02_user",
    "Verif.Interleaver.C02_rcs2_partial",
    "Verif.Interleaver.C02_rcs2_1777_not_permutation"
   ],
   "note": "false of the code for DVB-RCS2 size 1777 (proved not to be a permutation); proved for every other accepted size"
  },
  {
   "property": "C03",
   "status": "proved",
   "theorems": [
    "Verif.Interleaver.C03_accepts_iff",
    "Verif.Interleaver.C03_rejects"
   ],
   "note": ""
  },
  {
   "property": "C07",
   "status": "partial",
   "theorems": [
    "Verif.BitPacker.C07_round_trip",
    "Verif.BitPacker.C07_round_trip_symbols",
    "Verif.BitPacker.C07_rejects",
    "Verif.BitPacker.C07_vectors_one_frame",
    "Verif.BitPacker.C07_vector_check_insufficient",
    "Verif.BitPacker.C07_unpack_check_wrong_type"
   ],
   "note": "round trip proved for every width, order, frame count and content on the pointer overloads and on one-frame vectors; the size checks of the vector overloads are shown insufficient for several frames and for the byte-wise unpack (findings)"
  },
  {
   "property": "C08",
   "status": "partial",
   "theorems": [
    "Verif.BitPacker.C08_in_place_partial",
    "Verif.BitPacker.C08_pack_in_place",
    "Verif.BitPacker.C08_unpack_in_place_ub"
   ],
   "note": "in-place round trip proved for one frame; in-place unpacking of two frames or more is proved to be undefined behaviour (finding)"
  },
  {
   "property": "C04",
   "status": "proved",
   "theorems": [
    "Verif.CRC.C04_build_check_extract",
    "Verif.CRC.C04_constructor"
   ],
   "note": ""
  },
  {
   "property": "C05",
   "status": "proved",
   "theorems": [
    "Verif.CRC.C05_check_iff_divisible",
    "Verif.CRC.C05_undetected_iff",
    "Verif.CRC.C05_burst_detected",
    "Verif.CRC.C05_known_polynomials",
    "Verif.CRC.C05_odd_weight_detected"
   ],
   "note": ""
  },
  {
   "property": "C06",
   "status": "proved",
   "theorems": [
    "Verif.CRC.C06_build_eq",
    "Verif.CRC.C06_check_eq",
    "Verif.CRC.C06_v1_eq_v3"
   ],
   "note": ""
  },
  {
   "property": "C42",
   "status": "partial",
   "theorems": [
    "Verif.CRC.C06_check_packed_eq",
    "Verif.CRC.C04_check_packed_ub"
   ],
   "note": "proved for the table-driven CRC; the bitwise CRC's check_packed is proved to be undefined behaviour for every object and content (finding)"
  },
  {
   "property": "C09",
   "status": "partial",
   "theorems": [
    "Verif.Polar.C09_constructor",
    "Verif.Polar.C09_encode",
    "Verif.Polar.C09_linear",
    "Verif.Polar.C09_involution",
    "Verif.Polar.C09_non_power_of_two_ub"
   ],
   "note": "proved for every power-of-two length, frozen set and word; other lengths are accepted by the constructor and encoding is then proved to read out of bounds for N=3 (finding)"
  },
  {
   "property": "C10",
   "status": "partial",
   "theorems": [
    "Verif.Polar.C10_is_codeword_exact",
    "Verif.Polar.C10_is_codeword_partial",
    "Verif.Polar.C10_encode_accepted",
    "Verif.Polar.C10_last_position_not_checked"
   ],
   "note": "exact characterisation proved for every frozen set; equals code membership when the last position carries information, shown false otherwise (finding)"
  },
  {
   "property": "C11",
   "status": "partial",
   "theorems": [
    "Verif.Polar.C11_systematic_partial",
    "Verif.Polar.C11_upset_convex",
    "Verif.Polar.C11_not_systematic"
   ],
   "note": "proved for every information set convex for bit domination (all standard constructions); a frozen set violating it is accepted and the output is shown not systematic (finding)"
  },
  {
   "property": "C12",
   "status": "proved",
   "theorems": [
    "Verif.RSC.C12_terminates",
    "Verif.RSC.C12_constructor",
    "Verif.RSC.C12_cpe_terminates"
   ],
   "note": ""
  },
  {
   "property": "C13",
   "status": "proved",
   "theorems": [
    "Verif.RSC.C13_systematic",
    "Verif.RSC.C13_linear"
   ],
   "note": ""
  },
  {
   "property": "C14",
   "status": "proved",
   "theorems": [
    "Verif.RSC.C14_is_codeword",
    "Verif.RSC.C14_encode_accepted"
   ],
   "note": ""
  },
  {
   "property": "C15",
   "status": "proved",
   "theorems": [
    "Verif.RSC.C15_trellis"
   ],
   "note": ""
  },
  {
   "property": "C16",
   "status": "proved",
   "theorems": [
    "Verif.BCH.C16_accepted",
    "Verif.BCH.C16_encode",
    "Verif.BCH.C16_linear",
    "Verif.BCH.C16_is_codeword",
    "Verif.BCH.C16_is_codeword_syndromes"
   ],
   "note": ""
  },
  {
   "property": "C17",
   "status": "proved",
   "theorems": [
    "Verif.Galois.C17_accepted",
    "Verif.Galois.C17_default",
    "Verif.Galois.C17_tables",
    "Verif.Galois.C17_multiplication",
    "Verif.Galois.C17_addition",
    "Verif.Galois.C17_full_width_ub",
    "Verif.Galois.C17_nonpositive_ub"
   ],
   "note": "for fields narrower than the element type; m equal to the type width and N <= 0 are proved undefined behaviour (findings)"
  },
  {
   "property": "C18",
   "status": "proved",
   "theorems": [
    "Verif.BCH.C18_bch_exists",
    "Verif.BCH.C18_bch_roots",
    "Verif.BCH.C18_bch_rejects",
    "Verif.BCH.C18_rs_exists",
    "Verif.BCH.C18_rs_roots",
    "Verif.BCH.C43_bch",
    "Verif.BCH.C43_rs"
   ],
   "note": ""
  },
  {
   "property": "C19",
   "status": "proved",
   "theorems": [
    "Verif.BCH.C19_encode",
    "Verif.BCH.C19_is_codeword"
   ],
   "note": ""
  },
  {
   "property": "C43",
   "status": "proved",
   "theorems": [
    "Verif.BCH.C43_bch",
    "Verif.BCH.C43_rs"
   ],
   "note": ""
  },
  {
   "property": "C44",
   "status": "partial",
   "theorems": [
    "Verif.BCH.C19_encode",
    "Verif.BCH.C19_info_positions_wrong",
    "Verif.BCH.C19_shortened_wrong",
    "Verif.BCH.C19_full_width_ub"
   ],
   "note": "false of the code: witnesses proved for the positions and for a shortened code; for every field as wide as the element type encoding is undefined behaviour on messages with a high symbol; the true part is C19"
  },
  {
   "property": "C45",
   "status": "proved",
   "theorems": [
    "Verif.Distance.C45_hamming_distance"
   ],
   "note": ""
  },
  {
   "property": "C46",
   "status": "proved",
   "theorems": [
    "Verif.Distance.C46_hard_decide"
   ],
   "note": ""
  },
  {
   "property": "C47",
   "status": "partial",
   "theorems": [
    "Verif.Distance.C47_hard_decide_unk_partial",
    "Verif.Distance.C47_negative_zero",
    "Verif.Distance.C47_unknown_tail"
   ],
   "note": "false of the code: negative zeros are decided differently in registers and remainder, and the remainder of hard_decide_unk never marks unknown values (witnesses proved); proved for sizes that are multiples of the register width"
  },
  {
   "property": "C20",
   "status": "proved",
   "theorems": [
    "Verif.Genius.C20_recorded",
    "Verif.Genius.C20_bch",
    "Verif.Genius.C20_bch_cw",
    "Verif.Genius.C20_bch_needs_memorizing"
   ],
   "note": ""
  },
  {
   "property": "C48",
   "status": "partial",
   "theorems": [
    "Verif.Genius.C20_recorded",
    "Verif.Genius.C48_partial_wave_ub",
    "Verif.Genius.C48_bch_cwd_zero",
    "Verif.Genius.C48_rs_always_throws"
   ],
   "note": "false of the code: partial waves write past the recorded words, the CWD flag is always 0, the RS genius decoder always throws; the true part is C20"
  },
  {
   "property": "C21",
   "status": "proved",
   "theorems": [
    "Verif.Repetition.C21_constructor",
    "Verif.Repetition.C21_encode",
    "Verif.Repetition.C21_is_codeword",
    "Verif.Repetition.C21_decode",
    "Verif.Repetition.C21_decode_exact",
    "Verif.Repetition.C21_noiseless",
    "Verif.Repetition.C21_wraps_8bit"
   ],
   "note": "decoding is proved for an arbitrary addition; noiseless decoding for every addition that keeps a common sign; the wrapping 8-bit addition of the standard decoder does not (C21_wraps_8bit, finding)"
  },
  {
   "property": "C22",
   "status": "proved",
   "theorems": [
    "Verif.Repetition.C22_constructor",
    "Verif.Repetition.C22_encode",
    "Verif.Repetition.C22_injective"
   ],
   "note": ""
  },
  {
   "property": "C49",
   "status": "proved",
   "theorems": [
    "Verif.Repetition.C49_noiseless",
    "Verif.Repetition.C49_single_ub"
   ],
   "note": "exact arithmetic in any ordered group; N = 1 is undefined behaviour (finding)"
  },
  {
   "property": "C23",
   "status": "proved",
   "theorems": [
    "Verif.Puncturer.C23_ldpc",
    "Verif.Puncturer.C23_turbo",
    "Verif.Puncturer.C23_turbo_db",
    "Verif.Puncturer.C23_polar",
    "Verif.Puncturer.C23_polar_accepts",
    "Verif.Puncturer.C23_no",
    "Verif.Puncturer.C23_round_trip"
   ],
   "note": "for pattern lengths dividing N_cw (LDPC), tail lengths multiple of 4 (buffered turbo) and exact sizes (double binary); the other accepted sizes are C50"
  },
  {
   "property": "C50",
   "status": "partial",
   "theorems": [
    "Verif.Puncturer.C23_ldpc",
    "Verif.Puncturer.C23_turbo",
    "Verif.Puncturer.C23_turbo_db",
    "Verif.Puncturer.C50_ldpc_tail",
    "Verif.Puncturer.C50_turbo_tail",
    "Verif.Puncturer.C50_turbo_db_overflow"
   ],
   "note": "false of the code: accepted sizes for which the end of the frame is not written or the output overflows (witnesses proved); true under the conditions of C23"
  },
  {
   "property": "C51",
   "status": "proved",
   "theorems": [
    "Verif.Puncturer.C51_frozen_bits",
    "Verif.Puncturer.C51_shortened",
    "Verif.Puncturer.C51_encode"
   ],
   "note": ""
  },
  {
   "property": "C31",
   "status": "proved",
   "theorems": [
    "Verif.Adaptor.C31_one_to_n",
    "Verif.Adaptor.C31_n_to_one",
    "Verif.Adaptor.C31_pushed",
    "Verif.Adaptor.C31_pulled",
    "Verif.Adaptor.C31_nothing_dropped",
    "Verif.Adaptor.C31_stage"
   ],
   "note": "copy mode; all schedules, spurious wake-ups and cancellations included"
  },
  {
   "property": "C32",
   "status": "proved",
   "theorems": [
    "Verif.Adaptor.C32_bounded",
    "Verif.Adaptor.C32_exclusive"
   ],
   "note": ""
  },
  {
   "property": "C33",
   "status": "proved",
   "theorems": [
    "Verif.Adaptor.C33_finite",
    "Verif.Adaptor.C33_no_lost_wakeup",
    "Verif.Adaptor.C33_no_deadlock",
    "Verif.Adaptor.C33_no_livelock",
    "Verif.Adaptor.C33_cancel_safe",
    "Verif.Adaptor.C33_cancel_releases",
    "Verif.Adaptor.C33_cancel_one_object"
   ],
   "note": "passive waiting: bounded number of steps to a quiescent state and a characterisation of those; active waiting: progress at every state; cancelling one object does not release the threads of its clones (C33_cancel_one_object, finding)"
  },
  {
   "property": "C25",
   "status": "proved",
   "theorems": [
    "Verif.Sparse.C25_hard",
    "Verif.Sparse.C25_soft"
   ],
   "note": ""
  },
  {
   "property": "C26",
   "status": "proved",
   "theorems": [
    "Verif.Sparse.C26_ops",
    "Verif.Sparse.C26_throw",
    "Verif.Sparse.C26_at",
    "Verif.Sparse.C26_sort",
    "Verif.Sparse.C26_resize_empty"
   ],
   "note": "resizing to an empty size is undefined behaviour (C26_resize_empty, finding)"
  },
  {
   "property": "C27",
   "status": "proved",
   "theorems": [
    "Verif.Sparse.C27_lift",
    "Verif.Sparse.C27_accept",
    "Verif.Sparse.C27_narrowing",
    "Verif.Sparse.C27_negative"
   ],
   "note": "entries outside -1..32767 are accepted and misread (C27_narrowing, C27_negative, findings)"
  },
  {
   "property": "C52",
   "status": "proved",
   "theorems": [
    "Verif.Sparse.C52_bgemm",
    "Verif.Sparse.C52_bgemmt",
    "Verif.Sparse.C52_checkGH",
    "Verif.Sparse.C52_interleave",
    "Verif.Sparse.C52_info",
    "Verif.Sparse.C52_interleave_orthogonal"
   ],
   "note": ""
  },
  {
   "property": "C24",
   "status": "proved",
   "theorems": [
    "Verif.Sparse.C24_G",
    "Verif.Sparse.C24_product",
    "Verif.Sparse.C24_is_codeword",
    "Verif.Sparse.C24_IRA",
    "Verif.Sparse.C24_IRA_unchecked",
    "Verif.Sparse.C24_QC",
    "Verif.Sparse.C24_LU",
    "Verif.Sparse.C24_method",
    "Verif.Sparse.C24_DVBS2",
    "Verif.Sparse.C24_DVBS2_lengths"
   ],
   "note": "the constructor of the IRA encoder does not check the double diagonal (C24_IRA_unchecked, finding); the DVB-S2 tables are checked by the kernel; method IDENTITY is C54"
  },
  {
   "property": "C53",
   "status": "proved",
   "theorems": [
    "Verif.Sparse.C53_of_sparse",
    "Verif.Sparse.C53_to_sparse",
    "Verif.Sparse.C53_transpose",
    "Verif.Sparse.C53_resize",
    "Verif.Sparse.C53_products",
    "Verif.Sparse.C53_inverse"
   ],
   "note": ""
  },
  {
   "property": "C54",
   "status": "partial",
   "theorems": [
    "Verif.Sparse.C53_resize",
    "Verif.Sparse.C53_resize_top_right",
    "Verif.Sparse.C53_resize_short",
    "Verif.Sparse.C53_degrees",
    "Verif.Sparse.C24_identity_ub"
   ],
   "note": "false of the code: out of bounds accesses are proved for the sizes given; the true part is C53_resize"
  },
  {
   "property": "C34",
   "status": "proved",
   "theorems": [
    "Verif.Module.C34_all_frames",
    "Verif.Module.C34_any_wave_size",
    "Verif.Module.C34_one_frame",
    "Verif.Module.C34_rejects"
   ],
   "note": "buffers of different sockets do not overlap; frame 0 is C56"
  },
  {
   "property": "C55",
   "status": "proved",
   "theorems": [
    "Verif.Module.C55_histories"
   ],
   "note": ""
  },
  {
   "property": "C56",
   "status": "partial",
   "theorems": [
    "Verif.Module.C34_frame_zero",
    "Verif.Module.C55_float_waves",
    "Verif.Module.C55_bound_not_restored"
   ],
   "note": "false of the code: exec(0) processes the whole first wave, 2^25+1 frames get 2^25 waves of one frame, the exception leaves the new number of frames (proved); the true parts are C34 and C55"
  },
  {
   "property": "C28",
   "status": "proved",
   "theorems": [
    "Verif.Monitor.C28_check",
    "Verif.Monitor.C28_histories",
    "Verif.Monitor.C28_counters"
   ],
   "note": "calls on all the frames, with fewer than 2^31 wrong bits per call; designated frames are C59"
  },
  {
   "property": "C29",
   "status": "proved",
   "theorems": [
    "Verif.Monitor.C29_done",
    "Verif.Monitor.C29_stays",
    "Verif.Monitor.C29_loop",
    "Verif.Monitor.C30_is_done",
    "Verif.Monitor.C30_sticky"
   ],
   "note": "fewer than 2^64 frames"
  },
  {
   "property": "C30",
   "status": "proved",
   "theorems": [
    "Verif.Monitor.C30_reduce",
    "Verif.Monitor.C30_order",
    "Verif.Monitor.C30_grouping",
    "Verif.Monitor.C30_is_done",
    "Verif.Monitor.C30_reset",
    "Verif.Monitor.C30_constructor",
    "Verif.Monitor.C30_sticky"
   ],
   "note": ""
  },
  {
   "property": "C57",
   "status": "proved",
   "theorems": [
    "Verif.Monitor.C57_histogram",
    "Verif.Monitor.C57_precision"
   ],
   "note": "values are scaled integers: the rounding of real values to the precision is not modelled"
  },
  {
   "property": "C58",
   "status": "proved",
   "theorems": [
    "Verif.Monitor.C58_callbacks",
    "Verif.Monitor.C58_history"
   ],
   "note": ""
  },
  {
   "property": "C59",
   "status": "partial",
   "theorems": [
    "Verif.Monitor.C28_check",
    "Verif.Monitor.C59_frame_id",
    "Verif.Monitor.C59_overflow",
    "Verif.Monitor.C59_null_first",
    "Verif.Monitor.C59_stale_id"
   ],
   "note": "false of the code: a frame identifier above 0 counts all the frames of stale buffers, 2^31 wrong bits overflow an int, a null first monitor is dereferenced, identifiers are reused (proved); the true parts are C28, C30 and C58"
  },
  {
   "property": "C35",
   "status": "proved",
   "theorems": [
    "Verif.Socket.C35_histories",
    "Verif.Socket.C35_same",
    "Verif.Socket.C35_throw",
    "Verif.Socket.C35_bind",
    "Verif.Socket.C35_priority",
    "Verif.Socket.C35_unbind",
    "Verif.Socket.C35_reset",
    "Verif.Socket.C35_assign"
   ],
   "note": "reset with at most one bound socket; the rest is C60"
  },
  {
   "property": "C60",
   "status": "partial",
   "theorems": [
    "Verif.Socket.C35_same",
    "Verif.Socket.C35_throw",
    "Verif.Socket.C35_reset",
    "Verif.Socket.C60_reset",
    "Verif.Socket.C60_fast_vector",
    "Verif.Socket.C60_chain"
   ],
   "note": "false of the code: reset with several bound sockets is undefined, fast bind of a vector throws after changing the pointer, chains keep stale pointers (proved); the true parts are C35"
  },
  {
   "property": "C36",
   "status": "proved",
   "theorems": [
    "Verif.Control.C36_iterator",
    "Verif.Control.C36_set_limit",
    "Verif.Control.C36_limit",
    "Verif.Control.C36_cyclic",
    "Verif.Control.C36_paths",
    "Verif.Control.C36_switcher",
    "Verif.Control.C36_switcher_reset",
    "Verif.Control.C36_loop",
    "Verif.Control.C36_body_count"
   ],
   "note": "at most 128 paths, limits below 2^64-1; the graph of the loop is given, its construction is not modelled"
  },
  {
   "property": "C61",
   "status": "partial",
   "theorems": [
    "Verif.Control.C36_loop",
    "Verif.Control.C36_paths",
    "Verif.Control.C61_abort",
    "Verif.Control.C61_many_paths",
    "Verif.Control.C61_greatest_limit",
    "Verif.Control.C61_no_path"
   ],
   "note": "false of the code: an abort leaves the iterator in the middle of its cycle, paths go through an int8_t, the greatest limit and zero paths divide by zero (proved); the true part is C36"
  },
  {
   "property": "C37",
   "status": "proved",
   "theorems": [
    "Verif.Quantizer.C37_constructor",
    "Verif.Quantizer.C37_pow2",
    "Verif.Quantizer.C37_infinite",
    "Verif.Quantizer.C37_shape",
    "Verif.Quantizer.C37_frame",
    "Verif.Quantizer.C37_custom",
    "Verif.Quantizer.C37_calibrate",
    "Verif.Quantizer.C37_fast",
    "Verif.Quantizer.C37_fast_frame"
   ],
   "note": "IEEE arithmetic with rounding to nearest even; finite and infinite inputs, NaN is C62; the vector instructions are assumed to be those of x86"
  },
  {
   "property": "C62",
   "status": "partial",
   "theorems": [
    "Verif.Quantizer.C37_fast_frame",
    "Verif.Quantizer.C62_nan",
    "Verif.Quantizer.C62_null_range",
    "Verif.Quantizer.C62_float",
    "Verif.Quantizer.C62_shift",
    "Verif.Quantizer.C62_fast_sign",
    "Verif.Quantizer.C62_fast_ties"
   ],
   "note": "false of the code: NaN and null ranges are undefined behaviour, float to float gives 0, shifts precede their checks, the vectorised version inverts the sign of large values and rounds halves to even (proved); the true part is C37"
  },
  {
   "property": "C38",
   "status": "proved",
   "theorems": [
    "Verif.Sorter.C38_partial_sort",
    "Verif.Sorter.C38_history",
    "Verif.Sorter.C38_destructive",
    "Verif.Sorter.C38_defaults",
    "Verif.Sorter.C38_make"
   ],
   "note": "linearly ordered values (no NaN); the vectorised sorter is not modelled"
  },
  {
   "property": "C63",
   "status": "partial",
   "theorems": [
    "Verif.Sorter.C38_partial_sort",
    "Verif.Sorter.C63_three",
    "Verif.Sorter.C63_one",
    "Verif.Sorter.C63_greatest",
    "Verif.Sorter.C63_too_many",
    "Verif.Sorter.C63_overflow"
   ],
   "note": "false of the code: other sizes ignore values, one value is undefined behaviour, values equal to the greatest of the type and K above the size repeat positions (proved); the true part is C38"
  },
  {
   "property": "C39",
   "status": "proved",
   "theorems": [
    "Verif.Reorderer.C39_apply",
    "Verif.Reorderer.C39_apply_rev",
    "Verif.Reorderer.C39_round_trip",
    "Verif.Reorderer.C39_straight"
   ],
   "note": "the number of elements in a register is a power of two; the lane semantics of mipp::interleave is assumed (MIPP is not in the repository); Reorderer_static is not modelled; the combinations which exchange frames are C64"
  },
  {
   "property": "C64",
   "status": "partial",
   "theorems": [
    "Verif.Reorderer.C39_apply_rev",
    "Verif.Reorderer.C64_vectorised",
    "Verif.Reorderer.C64_exchanged"
   ],
   "note": "false of the code: with 8 frames and registers of 32 elements frames are exchanged (proved); the condition under which it holds is C39"
  },
  {
   "property": "C40",
   "status": "proved",
   "theorems": [
    "Verif.Prng.C40_calls",
    "Verif.Prng.C40_sequence"
   ],
   "note": "the vectorised generator is not modelled"
  },
  {
   "property": "C65",
   "status": "proved",
   "theorems": [
    "Verif.Prng.C65_cc",
    "Verif.Prng.C65_randd_co",
    "Verif.Prng.C65_randd_oo"
   ],
   "note": "IEEE arithmetic with rounding to nearest even"
  },
  {
   "property": "C66",
   "status": "partial",
   "theorems": [
    "Verif.Prng.C66_randf_co",
    "Verif.Prng.C66_randf_oo",
    "Verif.Prng.C66_order"
   ],
   "note": "false of the code: in single precision 1 is returned for the 128 greatest numbers drawn, exactly, and the 64-bit number depends on the order of evaluation (proved)"
  },
  {
   "property": "C67",
   "status": "proved",
   "theorems": [
    "Verif.BCHDec.C67_accepted",
    "Verif.BCHDec.C67_decode",
    "Verif.BCHDec.C67_corrects",
    "Verif.BCHDec.C67_full_length",
    "Verif.BCHDec.C67_roundtrip"
   ],
   "note": "the constructor's range of N is wider: lengths below half of the field are C68; 2t(N-1) < 2^31 excludes the overflow of the product i*j"
  },
  {
   "property": "C68",
   "status": "partial",
   "theorems": [
    "Verif.BCHDec.C68_shortened_not_codeword",
    "Verif.BCHDec.C68_short_refused"
   ],
   "note": "false of the code: a shortened code announces non-codewords, and a code shortened below half of its length refuses error-free codewords (witnesses proved)"
  },
  {
   "property": "C69",
   "status": "proved",
   "theorems": [
    "Verif.RSDec.C69_accepted",
    "Verif.RSDec.C69_corrects",
    "Verif.RSDec.C69_refuses",
    "Verif.RSDec.C69_full_length",
    "Verif.RSDec.C69_roundtrip"
   ],
   "note": "shortened codes whose nearest codeword uses the removed positions, lengths below half of the field and symbols as wide as their type are C70"
  },
  {
   "property": "C70",
   "status": "partial",
   "theorems": [
    "Verif.RSDec.C70_shortened_overrun",
    "Verif.RSDec.C70_overrun_witness",
    "Verif.RSDec.C70_short_refused",
    "Verif.RSDec.C70_full_width_ub"
   ],
   "note": "false of the code: exactly which received words make a shortened decoder write out of bounds is proved, as are the two other faults"
  },
  {
   "property": "C71",
   "status": "proved",
   "theorems": [
    "Verif.Sequence.C71_build",
    "Verif.Sequence.C71_rejects",
    "Verif.Sequence.C71_unique",
    "Verif.Sequence.C71_dataflow",
    "Verif.Sequence.C71_order_irrelevant"
   ],
   "note": "sequences without switchers, first thread; copies for other threads, switchers (C36, C61) and exceptions thrown by tasks are not part of this model"
  },
  {
   "property": "C72",
   "status": "partial",
   "theorems": [
    "Verif.Sequence.C72_firsts_wrong",
    "Verif.Sequence.C72_two_firsts",
    "Verif.Sequence.C72_clone_throws",
    "Verif.Sequence.C72_cycle_overflow",
    "Verif.Sequence.C72_first_fed_ub"
   ],
   "note": "false of the code: with several first tasks the reported ones are wrong for every program, the usual chain cannot be cloned, a cycle exhausts the stack (proved)"
  },
  {
   "property": "C73",
   "status": "proved",
   "theorems": [
    "Verif.PolarSC.C73_constructor",
    "Verif.PolarSC.C73_set_frozen",
    "Verif.PolarSC.C73_decode",
    "Verif.PolarSC.C73_unique",
    "Verif.PolarSC.C73_codeword",
    "Verif.PolarSC.C73_int8",
    "Verif.PolarSC.C73_int16",
    "Verif.PolarSC.C73_float",
    "Verif.PolarSC.C73_double",
    "Verif.PolarSC.C73_functions_int",
    "Verif.PolarSC.C73_functions_float"
   ],
   "note": "the naive SC decoders with one frame; the systematic round trip is for the frozen sets of C11; extreme magnitudes are C74"
  },
  {
   "property": "C74",
   "status": "partial",
   "theorems": [
    "Verif.PolarSC.C74_int8_min",
    "Verif.PolarSC.C74_float_underflow"
   ],
   "note": "false of the code: two values -128, or two floats whose product underflows, are decoded as another codeword (proved)"
  },
  {
   "property": "C75",
   "status": "proved",
   "theorems": [
    "Verif.ML.C75_constructor",
    "Verif.ML.C75_unique",
    "Verif.ML.C75_std_hard",
    "Verif.ML.C75_naive_hard",
    "Verif.ML.C75_naive_refused",
    "Verif.ML.C75_soft_hamming",
    "Verif.ML.C75_std_soft_float",
    "Verif.ML.C75_naive_soft_float",
    "Verif.ML.C75_std_soft_int",
    "Verif.ML.C75_naive_soft_int"
   ],
   "note": "the encoder is any function; sizes of 64 bits, infinite inputs and roundings are C76"
  },
  {
   "property": "C76",
   "status": "partial",
   "theorems": [
    "Verif.ML.C76_std_64",
    "Verif.ML.C76_naive_64",
    "Verif.ML.C76_infinite",
    "Verif.ML.C76_history",
    "Verif.ML.C76_absorbed"
   ],
   "note": "false of the code: with 64 bits only the null message is tried, with an infinite input the message is that of the previous frame, small inputs are absorbed by large ones (proved)"
  },
  {
   "property": "C77",
   "status": "proved",
   "theorems": [
    "Verif.Chase.C77_constructor",
    "Verif.Chase.C77_tested",
    "Verif.Chase.C77_unique",
    "Verif.Chase.C77_soft",
    "Verif.Chase.C77_hamming",
    "Verif.Chase.C77_codeword",
    "Verif.Chase.C77_refused",
    "Verif.Chase.C77_int",
    "Verif.Chase.C77_all"
   ],
   "note": "std::partial_sort is any function that satisfies its specification; the encoder is any function; its sizes, which the constructor does not check, are those of the decoder; frames without a codeword in reach are C78"
  },
  {
   "property": "C78",
   "status": "partial",
   "theorems": [
    "Verif.Chase.C78_stale",
    "Verif.Chase.C78_history"
   ],
   "note": "false of the code: the test found for a previous frame is applied to a frame that cannot be repaired, for every code (proved), so the result depends on the history (witness proved)"
  },
  {
   "property": "C79",
   "status": "proved",
   "theorems": [
    "Verif.Peeling.C79_constructor",
    "Verif.Peeling.C79_total",
    "Verif.Peeling.C79_message",
    "Verif.Peeling.C79_kept",
    "Verif.Peeling.C79_sound",
    "Verif.Peeling.C79_cwd",
    "Verif.Peeling.C79_codeword",
    "Verif.Peeling.C79_only",
    "Verif.Peeling.C79_rounds",
    "Verif.Peeling.C79_complete",
    "Verif.Peeling.C79_stopping",
    "Verif.Peeling.C79_history",
    "Verif.Peeling.C79_soft"
   ],
   "note": "words of bits and unknown symbols of 8, 16 or 32 bits; LLRs for sizes that are multiples of the register; the reference read after its element is erased is taken to give the value still there; the rest is C80"
  },
  {
   "property": "C80",
   "status": "partial",
   "theorems": [
    "Verif.Peeling.C80_blind",
    "Verif.Peeling.C80_late",
    "Verif.Peeling.C80_tail",
    "Verif.Peeling.C80_wide",
    "Verif.Peeling.C80_info"
   ],
   "note": "false of the code: CWD is 1 for every word without erasures, may be 0 for a word recovered in the last iteration, erased LLRs after the last whole register become known zeros, 64-bit unknown symbols are the bit 0, positions out of range are accepted and read (proved)"
  },
  {
   "property": "C81",
   "status": "proved",
   "theorems": [
    "Verif.Cstl.C81_pam",
    "Verif.Cstl.C81_distinct",
    "Verif.Cstl.C81_qam",
    "Verif.Cstl.C81_psk",
    "Verif.Cstl.C81_user"
   ],
   "note": "the square root, sine, cosine and complex division of the library are parameters; distinctness of PAM points needs a square root between 1 and its argument for arguments from 1; the rest is C82"
  },
  {
   "property": "C82",
   "status": "partial",
   "theorems": [
    "Verif.Cstl.C82_pam",
    "Verif.Cstl.C82_odd",
    "Verif.Cstl.C82_empty",
    "Verif.Cstl.C82_complex",
    "Verif.Cstl.C82_blank"
   ],
   "note": "false of the code: a PAM of 16 bits or more has only NaN points, a QAM of an odd number of bits gives pairs of words the same point, no bits and blank lines are undefined behaviour, a user constellation is always declared complex (proved)"
  },
  {
   "property": "C83",
   "status": "proved",
   "theorems": [
    "Verif.Modem.C83_size",
    "Verif.Modem.C83_modulate",
    "Verif.Modem.C83_filter",
    "Verif.Modem.C83_history",
    "Verif.Modem.C83_llr",
    "Verif.Modem.C83_metric",
    "Verif.Modem.C83_numbers",
    "Verif.Modem.C83_sign",
    "Verif.Modem.C83_nearest",
    "Verif.Modem.C83_recover",
    "Verif.Modem.C83_pam",
    "Verif.Modem.C83_turbo",
    "Verif.Modem.C83_extrinsic",
    "Verif.Modem.C83_prior0"
   ],
   "note": "with the max proto of the demodulator (std::max); the soft modulation tmodulate is not modelled; histories without filter and parameters other than the greatest float, the rest is C84"
  },
  {
   "property": "C84",
   "status": "partial",
   "theorems": [
    "Verif.Modem.C84_filter",
    "Verif.Modem.C84_first",
    "Verif.Modem.C84_size",
    "Verif.Modem.C84_last",
    "Verif.Modem.C84_nan"
   ],
   "note": "false of the code: filter makes the next demodulation use a stale scale, the greatest float as first parameter is not seen, the number of symbols is computed in float, points that cannot be sent are counted for an incomplete last symbol, a prior of minus infinity gives NaN (proved)"
  },
  {
   "property": "C85",
   "status": "proved",
   "theorems": [
    "Verif.Bin.C85_modulate",
    "Verif.Bin.C85_filter",
    "Verif.Bin.C85_history",
    "Verif.Bin.C85_fast",
    "Verif.Bin.C85_llr",
    "Verif.Bin.C85_gain",
    "Verif.Bin.C85_recover",
    "Verif.Bin.C85_copy",
    "Verif.Bin.C85_erasure",
    "Verif.Bin.C85_unknown",
    "Verif.Bin.C85_symmetric"
   ],
   "note": "the logarithm of the library is a parameter (from -200 to (x-1)/2 for x below 1); received values and gains of ordinary magnitude for the accuracy; histories without filter, the rest is C86"
  },
  {
   "property": "C86",
   "status": "partial",
   "theorems": [
    "Verif.Bin.C86_filter",
    "Verif.Bin.C86_null",
    "Verif.Bin.C86_first",
    "Verif.Bin.C86_ook",
    "Verif.Bin.C86_gain",
    "Verif.Bin.C86_nan",
    "Verif.Bin.C86_one",
    "Verif.Bin.C86_fast"
   ],
   "note": "false of the code: filter makes the next demodulation use a stale factor (on the symmetric channel all LLRs are then null), the OOK multiplies by twice the variance instead of dividing and ignores the gain in its threshold, extreme parameters give NaN, the fast BPSK is built for types it cannot modulate (proved)"
  },
  {
   "property": "C87",
   "status": "proved",
   "theorems": [
    "Verif.PolarSCL.C87_constructor",
    "Verif.PolarSCL.C87_decode",
    "Verif.PolarSCL.C87_history",
    "Verif.PolarSCL.C87_set_frozen",
    "Verif.PolarSCL.C87_list",
    "Verif.PolarSCL.C87_maximum_likelihood",
    "Verif.PolarSCL.C87_one_path",
    "Verif.PolarSCL.C87_int8",
    "Verif.PolarSCL.C87_int16",
    "Verif.PolarSCL.C87_float",
    "Verif.PolarSCL.C87_double"
   ],
   "note": "codes of at least two bits, new frozen bits as many as the previous ones; the sort of the standard library is any function that returns its elements by increasing metrics, the CRC any predicate; bounded sums of magnitudes where the metrics of integers can overflow (stated in each theorem), the rest is C88"
  },
  {
   "property": "C88",
   "status": "partial",
   "theorems": [
    "Verif.PolarSCL.C88_one_bit",
    "Verif.PolarSCL.C88_codeword",
    "Verif.PolarSCL.C88_set_frozen",
    "Verif.PolarSCL.C88_no_pass",
    "Verif.PolarSCL.C88_overflow"
   ],
   "note": "false of the code: codes of one bit are undefined, the plain decoder gives codewords of bit_init, new frozen bits are not checked, without a passing path the path of index 0 is given, integer metrics overflow without noise (proved)"
  },
  {
   "property": "C89",
   "status": "proved",
   "theorems": [
    "Verif.LDPCBP.C89_flooding_constructor",
    "Verif.LDPCBP.C89_layered_constructor",
    "Verif.LDPCBP.C89_flooding",
    "Verif.LDPCBP.C89_layered",
    "Verif.LDPCBP.C89_flooding_history",
    "Verif.LDPCBP.C89_layered_history"
   ],
   "note": "for any arithmetic and any update rule given as functions; one frame at a time (not the inter-frame SIMD versions); variables of at most 256 checks for the decoding by flooding, the rest is C91"
  },
  {
   "property": "C90",
   "status": "proved",
   "theorems": [
    "Verif.LDPCBP.C90_min_sum_float",
    "Verif.LDPCBP.C90_min_sum_int",
    "Verif.LDPCBP.C90_normalize",
    "Verif.LDPCBP.C90_sum_product_sign",
    "Verif.LDPCBP.C90_recovery_flooding",
    "Verif.LDPCBP.C90_recovery_layered",
    "Verif.LDPCBP.C90_symmetry_flooding",
    "Verif.LDPCBP.C90_symmetry_horizontal"
   ],
   "note": "recovery and symmetry for MS, OMS and NMS on floating-point numbers; the symmetry when no a posteriori value is null; tanh, atanh, log and exp are any functions"
  },
  {
   "property": "C91",
   "status": "partial",
   "theorems": [
    "Verif.LDPCBP.C91_degree",
    "Verif.LDPCBP.C91_wrap",
    "Verif.LDPCBP.C91_degree_one",
    "Verif.LDPCBP.C91_depth_history",
    "Verif.LDPCBP.C91_announced",
    "Verif.LDPCBP.C91_missed",
    "Verif.LDPCBP.C91_null_spa",
    "Verif.LDPCBP.C91_null_lspa"
   ],
   "note": "false of the code: checks of a variable counted on 8 bits, integer sums wrap around, the depth counter survives from frame to frame, codewords announced without being checked or not announced, null LLRs taken as certain by the sum-product rules (proved)"
  },
  {
   "property": "C92",
   "status": "proved",
   "theorems": [
    "Verif.BCJR.C92_constructor",
    "Verif.BCJR.C92_siso_alt_short",
    "Verif.BCJR.C92_siso_alt_float",
    "Verif.BCJR.C92_siso_short",
    "Verif.BCJR.C92_siso_float",
    "Verif.BCJR.C92_siho_short",
    "Verif.BCJR.C92_siho_float",
    "Verif.BCJR.C92_maximum_likelihood",
    "Verif.BCJR.C92_recovery_short",
    "Verif.BCJR.C92_recovery_float"
   ],
   "note": "implementation GENERIC with max as both operators, one frame per wave; with the buffered layout decode_siho replaces the LLRs of the tail parities by the initial value of a vector (stated in parUsed); magnitudes bounded so that nothing overflows or is rounded; the rest is C93"
  },
  {
   "property": "C93",
   "status": "partial",
   "theorems": [
    "Verif.BCJR.C93_tail_ignored",
    "Verif.BCJR.C93_buffered_not_ml",
    "Verif.BCJR.C93_even_feedback",
    "Verif.BCJR.C93_overflow_short",
    "Verif.BCJR.C93_overflow_char",
    "Verif.BCJR.C93_precision_char"
   ],
   "note": "false of the code: tail parities not loaded with the buffered layout, even feedback polynomials, overflows and halved branch metrics (proved)"
  },
  {
   "property": "C94",
   "status": "proved",
   "theorems": [
    "Verif.Turbo.C94_constructor",
    "Verif.Turbo.C94_permutation",
    "Verif.Turbo.C94_encode",
    "Verif.Turbo.C94_is_codeword",
    "Verif.Turbo.C94_encode_interlaced",
    "Verif.Turbo.C94_is_codeword_interlaced",
    "Verif.Turbo.C94_unique",
    "Verif.Turbo.C94_unique_interlaced",
    "Verif.Turbo.C94_linear"
   ],
   "note": "sub-encoders of the same message length and of the layout the encoder expects (not checked by the code: C96); is_codeword is stated for the permutation of frame 0"
  },
  {
   "property": "C95",
   "status": "proved",
   "theorems": [
    "Verif.Turbo.C95_decode_short",
    "Verif.Turbo.C95_decode_float",
    "Verif.Turbo.C95_run_exists",
    "Verif.Turbo.C95_recovery",
    "Verif.Turbo.C95_recovery_short",
    "Verif.Turbo.C95_recovery_float",
    "Verif.Turbo.C95_early_termination"
   ],
   "note": "Decoder_turbo_std with the generic BCJR decoders of C92, one frame per wave; scaling by shifts and CRC checker for the decisions, all the post-processings for the early termination; magnitudes bounded so that nothing overflows or is rounded; the rest is C96"
  },
  {
   "property": "C96",
   "status": "partial",
   "theorems": [
    "Verif.Turbo.C96_encoder_length",
    "Verif.Turbo.C96_encoder_layout",
    "Verif.Turbo.C96_is_codeword_frame",
    "Verif.Turbo.C96_constant_scaling",
    "Verif.Turbo.C96_adaptive_scaling",
    "Verif.Turbo.C96_scaling_asymmetric",
    "Verif.Turbo.C96_self_corrected_history",
    "Verif.Turbo.C96_flip_and_check_short",
    "Verif.Turbo.C96_wrap"
   ],
   "note": "false of the code: message length and layout of the sub-encoders not checked, permutation of frame 0 in is_codeword, scaling factors converted to integers, state of Self_corrected kept between frames, sort of 20 bits of a shorter message, sums that wrap around (proved)"
  },
  {
   "property": "C97",
   "status": "proved",
   "theorems": [
    "Verif.PolarFast.C97_constructor",
    "Verif.PolarFast.C97_patterns",
    "Verif.PolarFast.C97_int8",
    "Verif.PolarFast.C97_int16",
    "Verif.PolarFast.C97_float",
    "Verif.PolarFast.C97_double",
    "Verif.PolarFast.C97_recovers_int8",
    "Verif.PolarFast.C97_recovers_int16",
    "Verif.PolarFast.C97_recovers_float",
    "Verif.PolarFast.C97_recovers_double",
    "Verif.PolarFast.C97_total_int8",
    "Verif.PolarFast.C97_total_int16"
   ],
   "note": "sequential functions, one frame per wave; bits are written as 0 and the sign bit (word), which the statements say; new frozen bits of the size and number of the decoder (not checked by the code: C98)"
  },
  {
   "property": "C98",
   "status": "partial",
   "theorems": [
    "Verif.PolarFast.C98_small_size",
    "Verif.PolarFast.C98_representation",
    "Verif.PolarFast.C98_int16_rep",
    "Verif.PolarFast.C98_int8_saturation",
    "Verif.PolarFast.C98_tie",
    "Verif.PolarFast.C98_spc_max",
    "Verif.PolarFast.C98_set_frozen_size",
    "Verif.PolarFast.C98_set_frozen_count",
    "Verif.PolarFast.C98_empty"
   ],
   "note": "false of the code: sizes under 64 are built but never decoded, other representation of bits, repetition sums that wrap, other results than the naive decoder on ties and saturation, write before the array on saturated parity checks, new frozen bits not checked (proved)"
  },
  {
   "property": "C99",
   "status": "proved",
   "theorems": [
    "Verif.RSCDB.C99_constructor",
    "Verif.RSCDB.C99_encode",
    "Verif.RSCDB.C99_is_codeword",
    "Verif.RSCDB.C99_unique",
    "Verif.RSCDB.C99_linear",
    "Verif.RSCDB.C99_info_bits_pos",
    "Verif.RSCDB.C99_trellis"
   ],
   "note": "bits are mathematical integers; is_codeword for words whose couples are binary (others index the tables out of bounds, as the plain C++ arrays would)"
  },
  {
   "property": "C100",
   "status": "partial",
   "theorems": [
    "Verif.RSCDB.C100_encode",
    "Verif.RSCDB.C100_is_codeword",
    "Verif.RSCDB.C100_sizes"
   ],
   "note": "false of the code: when the number of couples is a multiple of 7 (DVB-RCS1) or 15 (DVB-RCS2), encode and is_codeword read circ_states[-1] (proved for every message and word)"
  },
  {
   "property": "C101",
   "status": "proved",
   "theorems": [
    "Verif.RSCDB.C101_permutation",
    "Verif.RSCDB.C101_encode",
    "Verif.RSCDB.C101_is_codeword",
    "Verif.RSCDB.C101_unique",
    "Verif.RSCDB.C101_linear",
    "Verif.RSCDB.C101_constructor"
   ],
   "note": "component encoders of K bits (not checked by the code: C102); the permutation is that of the first frame for all frames (C102)"
  },
  {
   "property": "C102",
   "status": "partial",
   "theorems": [
    "Verif.RSCDB.C102_component_size",
    "Verif.RSCDB.C102_first_frame"
   ],
   "note": "false of the code: component encoders of other sizes are accepted, then memory is read out of bounds or the word is refused by is_codeword; the permutations of the other frames are never used (proved)"
  },
  {
   "property": "C103",
   "status": "proved",
   "theorems": [
    "Verif.TurboProduct.C103_constructor",
    "Verif.TurboProduct.C103_encode",
    "Verif.TurboProduct.C103_unique",
    "Verif.TurboProduct.C103_all_words",
    "Verif.TurboProduct.C103_linear"
   ],
   "note": "sizes fit in an int; fields given by primitive polynomials, as in C16; read orders from the bottom: C104"
  },
  {
   "property": "C104",
   "status": "partial",
   "theorems": [
    "Verif.TurboProduct.C104_read_order",
    "Verif.TurboProduct.C104_info_bits_pos"
   ],
   "note": "false of the code: interleavers that read the columns from the bottom are accepted and all messages get the same word; the announced positions are the first ones, where the parity bits are (proved with witnesses)"
  },
  {
   "property": "C105",
   "status": "proved",
   "theorems": [
    "Verif.PolarMK.C105_code",
    "Verif.PolarMK.C105_code_mono",
    "Verif.PolarMK.C105_constructor",
    "Verif.PolarMK.C105_encode",
    "Verif.PolarMK.C105_linear",
    "Verif.PolarMK.C105_injective",
    "Verif.PolarMK.C105_can_be_systematic",
    "Verif.PolarMK.C105_sys_constructor",
    "Verif.PolarMK.C105_systematic_codeword",
    "Verif.PolarMK.C105_systematic_iff"
   ],
   "note": "the encoder is built for the length of its code and the code has a stage: other cases in C106; the number of stages of the one-kernel constructor, a floating-point quotient of logarithms, is arbitrary; determinants are computed without overflow of int"
  },
  {
   "property": "C106",
   "status": "partial",
   "theorems": [
    "Verif.PolarMK.C106_stage_ub",
    "Verif.PolarMK.C106_even_determinant",
    "Verif.PolarMK.C106_singular_kernel_accepted",
    "Verif.PolarMK.C106_length_not_checked",
    "Verif.PolarMK.C106_not_systematic",
    "Verif.PolarMK.C106_no_stage_ub"
   ],
   "note": "false of the code: even determinants are accepted and messages are lost, stages out of range are undefined behaviour, the length of the encoder is not checked, leaking information sets are accepted (proved, in general or with witnesses)"
  },
  {
   "property": "C107",
   "status": "proved",
   "theorems": [
    "Verif.BitFile.C107_sink",
    "Verif.BitFile.C107_sink_rejects",
    "Verif.BitFile.C107_source",
    "Verif.BitFile.C107_source_cyclic",
    "Verif.BitFile.C107_round_trip"
   ],
   "note": "frame lengths 4 or at least 6 for the source, and for the automatic reset frames of whole bytes or a whole number of frames in the file: other cases in C108; fifo mode and input/output errors are not modelled"
  },
  {
   "property": "C108",
   "status": "partial",
   "theorems": [
    "Verif.BitFile.C108_auto_reset_loses_bits",
    "Verif.BitFile.C108_empty_file_never_returns",
    "Verif.BitFile.C108_short_frames_ub",
    "Verif.BitFile.C108_sink_tail_lost",
    "Verif.BitFile.C108_sink_truncates_before_check",
    "Verif.BitFile.C108_extra_frame"
   ],
   "note": "false of the code: bits are lost and zeros inserted when the file is started again inside a frame, generate never returns on an empty file, frame lengths 1, 2, 3 and 5 are written out of bounds, the last incomplete byte is never written, an extra frame of zeros precedes is_done() (proved, in general or with witnesses)"
  },
  {
   "property": "C109",
   "status": "proved",
   "theorems": [
    "Verif.Extractor.C109_systematic",
    "Verif.Extractor.C109_rejects",
    "Verif.Extractor.C109_add",
    "Verif.Extractor.C109_polar",
    "Verif.Extractor.C109_rsc",
    "Verif.Extractor.C109_rsc_systematic",
    "Verif.Extractor.C109_rsc_message",
    "Verif.Extractor.C109_coset_bit",
    "Verif.Extractor.C109_coset_real"
   ],
   "note": "frozen sets with exactly K information positions; others, and the parity output of the base class, in C110; LLRs are abstract (sign test, addition and negation are parameters)"
  },
  {
   "property": "C110",
   "status": "partial",
   "theorems": [
    "Verif.Extractor.C110_parity_is_systematic",
    "Verif.Extractor.C110_parity_overflow",
    "Verif.Extractor.C110_polar_overflow",
    "Verif.Extractor.C110_polar_too_few",
    "Verif.Extractor.C110_coset_min"
   ],
   "note": "false of the code: the parity output of the base class holds the systematic LLRs for every code (the test is inverted) and is overflown for every rate above one half, frozen sets with too many information positions overflow the table and with too few give position 0, the most negative integer LLR keeps its sign (proved, in general)"
  },
  {
   "property": "C111",
   "status": "proved",
   "theorems": [
    "Verif.RA.C111_encode",
    "Verif.RA.C111_injective",
    "Verif.RA.C111_linear",
    "Verif.RA.C111_symmetry",
    "Verif.RA.C111_decode"
   ],
   "note": "extends C22 and C49 to linearity, decoder symmetry and objects used on any history of frames; the decoder in exact arithmetic (any ordered group) for frames of at least two bits; fixed-point LLRs and frames of one bit in C112; rounding of floating-point LLRs is not modelled"
  },
  {
   "property": "C112",
   "status": "partial",
   "theorems": [
    "Verif.RA.C112_one_bit",
    "Verif.RA.C112_overflow",
    "Verif.RA.C112_info_bits_pos"
   ],
   "note": "false of the code: decoding a frame of one bit accesses index -1 (for every accepted decoder), 8-bit sums overflow and turn an error-free codeword into the complement of its message, the published information positions do not hold the message (proved)"
  },
  {
   "property": "C113",
   "status": "proved",
   "theorems": [
    "Verif.User.C113_source",
    "Verif.User.C113_source_rejects",
    "Verif.User.C113_encoder",
    "Verif.User.C113_encoder_positions",
    "Verif.User.C113_channel_file",
    "Verif.User.C113_channels",
    "Verif.User.C113_flip",
    "Verif.User.C113_random_fast",
    "Verif.User.C113_random_fast_all"
   ],
   "note": "flips for frames that fill the registers or noise of integers 0 and 1, replaced and added noise with one frame per wave, 'every message' for bits of at most 32 bits; the other cases are C114; binary noise files are not modelled"
  },
  {
   "property": "C114",
   "status": "partial",
   "theorems": [
    "Verif.User.C114_source_short",
    "Verif.User.C114_negative_start",
    "Verif.User.C114_encoder_positions",
    "Verif.User.C114_noise_short",
    "Verif.User.C114_add_users",
    "Verif.User.C114_flip_tail",
    "Verif.User.C114_random_64"
   ],
   "note": "false of the code: uninitialised values for short files, out-of-bounds read for negative start indexes, positions outside the codeword, no noise with added users, zeros not flipped at the end of frames, half of the last bits always zero with 64-bit bits (proved)"
  },
  {
   "property": "C115",
   "status": "proved",
   "theorems": [
    "Verif.LDPCBF.C115_omwbf",
    "Verif.LDPCBF.C115_omwbf_announced",
    "Verif.LDPCBF.C115_omwbf_codeword",
    "Verif.LDPCBF.C115_omwbf_symmetric",
    "Verif.LDPCBF.C115_omwbf_distance",
    "Verif.LDPCBF.C115_omwbf_worst",
    "Verif.LDPCBF.signs_int",
    "Verif.LDPCBF.signs_float",
    "Verif.LDPCBF.C115_ppbf",
    "Verif.LDPCBF.C115_ppbf_announced",
    "Verif.LDPCBF.C115_ppbf_codeword",
    "Verif.LDPCBF.C115_ppbf_symmetric"
   ],
   "note": "the arithmetic of the weighted decoder is a parameter whose sign laws are proved for saturating integers and for IEEE floats; the random source of the probabilistic decoder is any state machine; the other cases are C116"
  },
  {
   "property": "C116",
   "status": "partial",
   "theorems": [
    "Verif.LDPCBF.C116_no_iteration",
    "Verif.LDPCBF.C116_last_flip",
    "Verif.LDPCBF.C116_wide_check",
    "Verif.LDPCBF.C116_depth",
    "Verif.LDPCBF.C116_no_syndrome",
    "Verif.LDPCBF.C116_last_update",
    "Verif.LDPCBF.C116_not_bits"
   ],
   "note": "false of the code: every word announced with no iteration, codewords of the last flip not announced, checks of 256 variables ignored, words announced that were updated after the check, undefined behaviour for values that are not bits (proved)"
  },
  {
   "property": "C117",
   "status": "proved",
   "theorems": [
    "Verif.Gallager.C117_hard",
    "Verif.Gallager.C117_soft",
    "Verif.Gallager.C117_constructor",
    "Verif.Gallager.C117_announced",
    "Verif.Gallager.C117_codeword",
    "Verif.Gallager.C117_symmetric",
    "Verif.Gallager.C117_history",
    "Verif.Gallager.C117_extrinsic"
   ],
   "note": "the decoder E on 64-bit values is excluded by a hypothesis (C118), variables have at most 256 checks"
  },
  {
   "property": "C118",
   "status": "partial",
   "theorems": [
    "Verif.Gallager.C118_wide",
    "Verif.Gallager.C118_unchecked",
    "Verif.Gallager.C118_last",
    "Verif.Gallager.C118_depth",
    "Verif.Gallager.C118_intrinsic"
   ],
   "note": "false of the code: E on 64-bit values decides 0 everywhere, words announced without a check, the last word not checked, valid words counted across frames, messages of B that depend on their target (proved)"
  },
  {
   "property": "C119",
   "status": "proved",
   "theorems": [
    "Verif.AList.C119_read_write",
    "Verif.AList.C119_sound",
    "Verif.AList.C119_no_ub",
    "Verif.AList.C119_third",
    "Verif.AList.C119_info",
    "Verif.AList.C119_infoKN",
    "Verif.AList.C119_info_sound"
   ],
   "note": "files are lists of lines of words; numbers fit in an int"
  },
  {
   "property": "C120",
   "status": "partial",
   "theorems": [
    "Verif.AList.C120_empty_unreadable",
    "Verif.AList.C120_columns_ignored",
    "Verif.AList.C120_format3_ub",
    "Verif.AList.C120_format3_refused"
   ],
   "note": "false of the code: matrices without connections are written but never readable, the column lists are not read, the third format compares the number of degrees with the number of rows (proved)"
  },
  {
   "property": "C121",
   "status": "proved",
   "theorems": [
    "Verif.Frozen.C121_generate",
    "Verif.Frozen.C121_nested",
    "Verif.Frozen.C121_size",
    "Verif.Frozen.C121_assert",
    "Verif.Frozen.C121_file",
    "Verif.Frozen.C121_5G",
    "Verif.Frozen.C121_5G_generate",
    "Verif.Frozen.C121_BEC",
    "Verif.Frozen.C121_GA",
    "Verif.Frozen.C121_best",
    "Verif.Frozen.C121_BEC_mean"
   ],
   "note": "the numeric formulas are parameters; the mean is proved for exact transforms; files are lists of words"
  },
  {
   "property": "C122",
   "status": "partial",
   "theorems": [
    "Verif.Frozen.C122_too_many",
    "Verif.Frozen.C122_negative",
    "Verif.Frozen.C122_truncated",
    "Verif.Frozen.C122_file",
    "Verif.Frozen.C122_5G_ub",
    "Verif.Frozen.C122_length"
   ],
   "note": "false of the code: the sizes are not checked and the files are accepted without verification of the channels (proved)"
  },
  {
   "property": "C123",
   "status": "proved",
   "theorems": [
    "Verif.Dumper.C123_registered",
    "Verif.Dumper.C123_recorded",
    "Verif.Dumper.C123_files",
    "Verif.Dumper.C123_reduction",
    "Verif.Dumper.C123_source",
    "Verif.Dumper.C123_encoder",
    "Verif.Dumper.C123_channel",
    "Verif.Dumper.C123_int"
   ],
   "note": "memory is modelled by bytes; text files of integers only; the decoding of floating-point bytes is a parameter"
  },
  {
   "property": "C124",
   "status": "partial",
   "theorems": [
    "Verif.Dumper.C124_threshold",
    "Verif.Dumper.C124_alignment",
    "Verif.Dumper.C124_extension",
    "Verif.Dumper.C124_not_opened",
    "Verif.Dumper.C124_large",
    "Verif.Dumper.C124_binary_header",
    "Verif.Dumper.C124_binary_as_text"
   ],
   "note": "false of the code: one threshold for all the areas, overwritten files, silent failures, and undefined behaviour of the reader of noise (proved)"
  },
  {
   "property": "C125",
   "status": "proved",
   "theorems": [
    "Verif.CRC.C125_check",
    "Verif.CRC.C125_divisible",
    "Verif.CRC.C125_build_extract"
   ],
   "note": "the vector operations are modelled element by element; the elements of checked frames are 0 or 1"
  },
  {
   "property": "C126",
   "status": "partial",
   "theorems": [
    "Verif.CRC.C126_layout",
    "Verif.CRC.C126_accepts_errors",
    "Verif.CRC.C126_values"
   ],
   "note": "false of the code: the frames are built one after the other and checked interleaved (witnesses); check_packed is not implemented"
  },
  {
   "property": "C127",
   "status": "proved",
   "theorems": [
    "Verif.Channel.C127_call",
    "Verif.Channel.C127_users",
    "Verif.Channel.C127_replay",
    "Verif.Channel.C127_rayleigh",
    "Verif.Channel.C127_gains",
    "Verif.Channel.C127_gains_file"
   ],
   "note": "the generators of random values are parameters, the operations on reals are parameters; the Rayleigh channel with added users is not modelled"
  },
  {
   "property": "C128",
   "status": "partial",
   "theorems": [
    "Verif.Channel.C128_last_twice",
    "Verif.Channel.C128_wrong_gain",
    "Verif.Channel.C128_empty",
    "Verif.Channel.C128_garbage"
   ],
   "note": "false of the code: the last gain is read twice when an end of line follows it, an empty file gives an uninitialised gain, a token that is not a number makes the reading endless"
  },
  {
   "property": "C129",
   "status": "proved",
   "theorems": [
    "Verif.HistDump.C129_cumulative",
    "Verif.HistDump.C129_values",
    "Verif.HistDump.C129_intervals",
    "Verif.HistDump.C129_no_loss"
   ],
   "note": "the counts of the lines; the normalisation and the formatting of the numbers are not modelled, the rung of a key is a parameter"
  },
  {
   "property": "C130",
   "status": "partial",
   "theorems": [
    "Verif.HistDump.C130_last_line",
    "Verif.HistDump.C130_errors",
    "Verif.HistDump.C130_borders",
    "Verif.HistDump.C130_single"
   ],
   "note": "false of the code: the line of the right border includes the count of the last value inside of the range, and that of the left border when nothing is inside"
  },
  {
   "property": "C131",
   "status": "proved",
   "theorems": [
    "Verif.Simple.C131_operators",
    "Verif.Simple.C131_reduce",
    "Verif.Simple.C131_min",
    "Verif.Simple.C131_initializer",
    "Verif.Simple.C131_initializer_safe",
    "Verif.Simple.C131_finalizer"
   ],
   "note": "the operations are parameters; the reducer with equal input and output types; the initializer for histories without a call that gives a wrong size for one frame (see C132)"
  },
  {
   "property": "C132",
   "status": "partial",
   "theorems": [
    "Verif.Simple.C132_narrow",
    "Verif.Simple.C132_not_atomic"
   ],
   "note": "false of the code: intermediate results are cast to the input type, a refused set_init_data changes the frames before the one of the wrong size"
  },
  {
   "property": "C133",
   "status": "proved",
   "theorems": [
    "Verif.Events.C133_calls",
    "Verif.Events.C133_extremes",
    "Verif.Events.C133_monotone",
    "Verif.Events.C133_channels",
    "Verif.Events.C133_logarithm"
   ],
   "note": "the fast generator of events, with MT19937 in each lane and IEEE arithmetic; the generators of the standard library, GSL and MKL are not modelled"
  },
  {
   "property": "C134",
   "status": "partial",
   "theorems": [
    "Verif.Events.C134_one",
    "Verif.Events.C134_rare"
   ],
   "note": "false of the code: randf_co and randf_oo of the vector generator reach 1; any positive probability gives an event for the number 0"
  },
  {
   "property": "C135",
   "status": "proved",
   "theorems": [
    "Verif.Gaussian.C135_calls",
    "Verif.Gaussian.C135_scale",
    "Verif.Gaussian.C135_quiet",
    "Verif.Gaussian.C135_channel"
   ],
   "note": "the fast generator for floats and aligned buffers; log, sqrt, sin and cos are parameters, assumed finite on the values proved to be drawn in C135_quiet only"
  },
  {
   "property": "C136",
   "status": "partial",
   "theorems": [
    "Verif.Gaussian.C136_frames"
   ],
   "note": "false of the code when alignment is that of a register: MIPP, which defines it, is not in the repository"
  },
  {
   "property": "C137",
   "status": "proved",
   "theorems": [
    "Verif.Numeric.C137_integrals",
    "Verif.Numeric.C137_cumulated",
    "Verif.Numeric.C137_linear"
   ],
   "note": "on rational numbers: rounding is not modelled; the functions of abstract integrands and the nearest interpolation are not modelled"
  },
  {
   "property": "C138",
   "status": "partial",
   "theorems": [
    "Verif.Numeric.C138_after_last",
    "Verif.Numeric.C138_trapz"
   ],
   "note": "false of the code: proved for all inputs that an ordinate is counted twice, and that the abscissa after the last one is read"
  },
  {
   "property": "C139",
   "status": "proved",
   "theorems": [
    "Verif.Distrib.C139_cdf",
    "Verif.Distrib.C139_noise",
    "Verif.Distrib.C139_refused"
   ],
   "note": "mode SUMMATION and linear interpolation, on rational numbers; the points are given sorted; with the sort of the points: C140_distribution"
  },
  {
   "property": "C140",
   "status": "proved",
   "theorems": [
    "Verif.Mutual.C140_sort",
    "Verif.Mutual.C140_distribution",
    "Verif.Mutual.C140_closest"
   ],
   "note": "one ordinate per abscissa, on rational numbers; std::lower_bound is modelled by its result on a sorted range"
  },
  {
   "property": "C141",
   "status": "partial",
   "theorems": [
    "Verif.Mutual.C141_last_point_lost"
   ],
   "note": "false of the code, so it is not proved: the theorem is a counterexample for all lists without repetition; mutual_unique removes the last point. The function has no caller in the repository"
  }
 ]
}