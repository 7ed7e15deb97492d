I = "Verif.Interleaver."
c("C01", "proved", [I+"C01_round_trip", I+"C01_pointwise"])
c("C41", "partial", [I+"C01_reordering_simd", I+"C01_reordering_single_wave", I+"C01_reordering_waves_ub"],
  "proved when the wave is a SIMD register or the whole batch, shown to have undefined behaviour otherwise (finding)")
c("C02", "partial", [I+"C02_no", I+"C02_row_column", I+"C02_column_row", I+"C02_row_column_inverse", I+"C02_random", I+"C02_golden", I+"C02_random_column", I+"C02_random_column_stays", I+"C02_lte", I+"C02_ccsds", I+"C02_rcs1", I+"C02_user", I+"C02_rcs2_partial", I+"C02_rcs2_1777_not_permutation"],
  "false of the code for DVB-RCS2 size 1777 (proved not to be a permutation); proved for every other accepted size")
c("C03", "proved", [I+"C03_accepts_iff", I+"C03_rejects"])

B = "Verif.BitPacker."
c("C07", "partial", [B+"C07_round_trip", B+"C07_round_trip_symbols", B+"C07_rejects", B+"C07_vectors_one_frame", B+"C07_vector_check_insufficient", B+"C07_unpack_check_wrong_type"],
  "round trip proved for every width, order, frame count and content on the pointer overloads and on one-frame vectors; the size checks of the vector overloads are shown insufficient for several frames and for the byte-wise unpack (findings)")
c("C08", "partial", [B+"C08_in_place_partial", B+"C08_pack_in_place", B+"C08_unpack_in_place_ub"],
  "in-place round trip proved for one frame; in-place unpacking of two frames or more is proved to be undefined behaviour (finding)")

R = "Verif.CRC."
c("C04", "proved", [R+"C04_build_check_extract", R+"C04_constructor"])
c("C05", "proved", [R+"C05_check_iff_divisible", R+"C05_undetected_iff", R+"C05_burst_detected", R+"C05_known_polynomials", R+"C05_odd_weight_detected"])
c("C06", "proved", [R+"C06_build_eq", R+"C06_check_eq", R+"C06_v1_eq_v3"])
c("C42", "partial", [R+"C06_check_packed_eq", R+"C04_check_packed_ub"],
  "proved for the table-driven CRC; the bitwise CRC's check_packed is proved to be undefined behaviour for every object and content (finding)")

P = "Verif.Polar."
c("C09", "partial", [P+"C09_constructor", P+"C09_encode", P+"C09_linear", P+"C09_involution", P+"C09_non_power_of_two_ub"],
  "proved for every power-of-two length, frozen set and word; other lengths are accepted by the constructor and encoding is then proved to read out of bounds for N=3 (finding)")
c("C10", "partial", [P+"C10_is_codeword_exact", P+"C10_is_codeword_partial", P+"C10_encode_accepted", P+"C10_last_position_not_checked"],
  "exact characterisation proved for every frozen set; equals code membership when the last position carries information, shown false otherwise (finding)")
c("C11", "partial", [P+"C11_systematic_partial", P+"C11_upset_convex", P+"C11_not_systematic"],
  "proved for every information set convex for bit domination (all standard constructions); a frozen set violating it is accepted and the output is shown not systematic (finding)")

S = "Verif.RSC."
c("C12", "proved", [S+"C12_terminates", S+"C12_constructor", S+"C12_cpe_terminates"])
c("C13", "proved", [S+"C13_systematic", S+"C13_linear"])
c("C14", "proved", [S+"C14_is_codeword", S+"C14_encode_accepted"])
c("C15", "proved", [S+"C15_trellis"])

G = "Verif.Galois."
H = "Verif.BCH."
c("C16", "proved", [H+"C16_accepted", H+"C16_encode", H+"C16_linear", H+"C16_is_codeword", H+"C16_is_codeword_syndromes"])
c("C17", "proved", [G+"C17_accepted", G+"C17_default", G+"C17_tables", G+"C17_multiplication", G+"C17_addition", G+"C17_full_width_ub", G+"C17_nonpositive_ub"],
  "for fields narrower than the element type; m equal to the type width and N <= 0 are proved undefined behaviour (findings)")
c("C18", "proved", [H+"C18_bch_exists", H+"C18_bch_roots", H+"C18_bch_rejects", H+"C18_rs_exists", H+"C18_rs_roots", H+"C43_bch", H+"C43_rs"])
c("C19", "proved", [H+"C19_encode", H+"C19_is_codeword"])
c("C43", "proved", [H+"C43_bch", H+"C43_rs"])
c("C44", "partial", [H+"C19_encode", H+"C19_info_positions_wrong", H+"C19_shortened_wrong", H+"C19_full_width_ub"],
  "false of the code: witnesses proved for the positions and for a shortened code; for every field as wide as the element type encoding is undefined behaviour on messages with a high symbol; the true part is C19")

D = "Verif.Distance."
c("C45", "proved", [D+"C45_hamming_distance"])
c("C46", "proved", [D+"C46_hard_decide"])
c("C47", "partial", [D+"C47_hard_decide_unk_partial", D+"C47_negative_zero", D+"C47_unknown_tail"],
  "false of the code: negative zeros are decided differently in registers and remainder, and the remainder of hard_decide_unk never marks unknown values (witnesses proved); proved for sizes that are multiples of the register width")

U = "Verif.Genius."
c("C20", "proved", [U+"C20_recorded", U+"C20_bch", U+"C20_bch_cw", U+"C20_bch_needs_memorizing"])
c("C48", "partial", [U+"C20_recorded", U+"C48_partial_wave_ub", U+"C48_bch_cwd_zero", U+"C48_rs_always_throws"],
  "false of the code: partial waves write past the recorded words, the CWD flag is always 0, the RS genius decoder always throws; the true part is C20")

T = "Verif.Repetition."
c("C21", "proved", [T+"C21_constructor", T+"C21_encode", T+"C21_is_codeword", T+"C21_decode", T+"C21_decode_exact", T+"C21_noiseless", T+"C21_wraps_8bit"],
  "decoding is proved for an arbitrary addition; noiseless decoding for every addition that keeps a common sign; the wrapping 8-bit addition of the standard decoder does not (C21_wraps_8bit, finding)")
c("C22", "proved", [T+"C22_constructor", T+"C22_encode", T+"C22_injective"])
c("C49", "proved", [T+"C49_noiseless", T+"C49_single_ub"], "exact arithmetic in any ordered group; N = 1 is undefined behaviour (finding)")

PU = "Verif.Puncturer."
c("C23", "proved", [PU+"C23_ldpc", PU+"C23_turbo", PU+"C23_turbo_db", PU+"C23_polar", PU+"C23_polar_accepts", PU+"C23_no", PU+"C23_round_trip"],
  "for pattern lengths dividing N_cw (LDPC), tail lengths multiple of 4 (buffered turbo) and exact sizes (double binary); the other accepted sizes are C50")
c("C50", "partial", [PU+"C23_ldpc", PU+"C23_turbo", PU+"C23_turbo_db", PU+"C50_ldpc_tail", PU+"C50_turbo_tail", PU+"C50_turbo_db_overflow"],
  "false of the code: accepted sizes for which the end of the frame is not written or the output overflows (witnesses proved); true under the conditions of C23")
c("C51", "proved", [PU+"C51_frozen_bits", PU+"C51_shortened", PU+"C51_encode"])

AD = "Verif.Adaptor."
c("C31", "proved", [AD+"C31_one_to_n", AD+"C31_n_to_one", AD+"C31_pushed", AD+"C31_pulled", AD+"C31_nothing_dropped", AD+"C31_stage"],
  "copy mode; all schedules, spurious wake-ups and cancellations included")
c("C32", "proved", [AD+"C32_bounded", AD+"C32_exclusive"])
c("C33", "proved", [AD+"C33_finite", AD+"C33_no_lost_wakeup", AD+"C33_no_deadlock", AD+"C33_no_livelock", AD+"C33_cancel_safe", AD+"C33_cancel_releases", AD+"C33_cancel_one_object"],
  "passive waiting: bounded number of steps to a quiescent state and a characterisation of those; active waiting: progress at every state; cancelling one object does not release the threads of its clones (C33_cancel_one_object, finding)")

SP = "Verif.Sparse."
c("C25", "proved", [SP+"C25_hard", SP+"C25_soft"])
c("C26", "proved", [SP+"C26_ops", SP+"C26_throw", SP+"C26_at", SP+"C26_sort", SP+"C26_resize_empty"],
  "resizing to an empty size is undefined behaviour (C26_resize_empty, finding)")
c("C27", "proved", [SP+"C27_lift", SP+"C27_accept", SP+"C27_narrowing", SP+"C27_negative"],
  "entries outside -1..32767 are accepted and misread (C27_narrowing, C27_negative, findings)")
c("C52", "proved", [SP+"C52_bgemm", SP+"C52_bgemmt", SP+"C52_checkGH", SP+"C52_interleave", SP+"C52_info", SP+"C52_interleave_orthogonal"])
c("C24", "proved", [SP+"C24_G", SP+"C24_product", SP+"C24_is_codeword", SP+"C24_IRA", SP+"C24_IRA_unchecked", SP+"C24_QC", SP+"C24_LU", SP+"C24_method", SP+"C24_DVBS2", SP+"C24_DVBS2_lengths"],
  "the constructor of the IRA encoder does not check the double diagonal (C24_IRA_unchecked, finding); the DVB-S2 tables are checked by the kernel; method IDENTITY is C54")
c("C53", "proved", [SP+"C53_of_sparse", SP+"C53_to_sparse", SP+"C53_transpose", SP+"C53_resize", SP+"C53_products", SP+"C53_inverse"])
c("C54", "partial", [SP+"C53_resize", SP+"C53_resize_top_right", SP+"C53_resize_short", SP+"C53_degrees", SP+"C24_identity_ub"],
  "false of the code: out of bounds accesses are proved for the sizes given; the true part is C53_resize")

MO = "Verif.Module."
c("C34", "proved", [MO+"C34_all_frames", MO+"C34_any_wave_size", MO+"C34_one_frame", MO+"C34_rejects"],
  "buffers of different sockets do not overlap; frame 0 is C56")
c("C55", "proved", [MO+"C55_histories"])
c("C56", "partial", [MO+"C34_frame_zero", MO+"C55_float_waves", MO+"C55_bound_not_restored"],
  "false of the code: exec(0) processes the whole first wave, 2^25+1 frames get 2^25 waves of one frame, the exception leaves the new number of frames (proved); the true parts are C34 and C55")

MN = "Verif.Monitor."
c("C28", "proved", [MN+"C28_check", MN+"C28_histories", MN+"C28_counters"],
  "calls on all the frames, with fewer than 2^31 wrong bits per call; designated frames are C59")
c("C29", "proved", [MN+"C29_done", MN+"C29_stays", MN+"C29_loop", MN+"C30_is_done", MN+"C30_sticky"], "fewer than 2^64 frames")
c("C30", "proved", [MN+"C30_reduce", MN+"C30_order", MN+"C30_grouping", MN+"C30_is_done", MN+"C30_reset", MN+"C30_constructor", MN+"C30_sticky"])
c("C57", "proved", [MN+"C57_histogram", MN+"C57_precision"], "values are scaled integers: the rounding of real values to the precision is not modelled")
c("C58", "proved", [MN+"C58_callbacks", MN+"C58_history"])
c("C59", "partial", [MN+"C28_check", MN+"C59_frame_id", MN+"C59_overflow", MN+"C59_null_first", MN+"C59_stale_id"],
  "false of the code: a frame identifier above 0 counts all the frames of stale buffers, 2^31 wrong bits overflow an int, a null first monitor is dereferenced, identifiers are reused (proved); the true parts are C28, C30 and C58")

SO = "Verif.Socket."
c("C35", "proved", [SO+x for x in ["C35_histories","C35_same","C35_throw","C35_bind","C35_priority","C35_unbind","C35_reset","C35_assign"]],
  "reset with at most one bound socket; the rest is C60")
c("C60", "partial", [SO+"C35_same", SO+"C35_throw", SO+"C35_reset", SO+"C60_reset", SO+"C60_fast_vector", SO+"C60_chain"],
  "false of the code: reset with several bound sockets is undefined, fast bind of a vector throws after changing the pointer, chains keep stale pointers (proved); the true parts are C35")

CT = "Verif.Control."
c("C36", "proved", [CT+x for x in ["C36_iterator","C36_set_limit","C36_limit","C36_cyclic","C36_paths","C36_switcher","C36_switcher_reset","C36_loop","C36_body_count"]],
  "at most 128 paths, limits below 2^64-1; the graph of the loop is given, its construction is not modelled")
c("C61", "partial", [CT+"C36_loop", CT+"C36_paths", CT+"C61_abort", CT+"C61_many_paths", CT+"C61_greatest_limit", CT+"C61_no_path"],
  "false of the code: an abort leaves the iterator in the middle of its cycle, paths go through an int8_t, the greatest limit and zero paths divide by zero (proved); the true part is C36")

QZ = "Verif.Quantizer."
c("C37", "proved", [QZ+x for x in ["C37_constructor","C37_pow2","C37_infinite","C37_shape","C37_frame","C37_custom","C37_calibrate","C37_fast","C37_fast_frame"]],
  "IEEE arithmetic with rounding to nearest even; finite and infinite inputs, NaN is C62; the vector instructions are assumed to be those of x86")
c("C62", "partial", [QZ+x for x in ["C37_fast_frame","C62_nan","C62_null_range","C62_float","C62_shift","C62_fast_sign","C62_fast_ties"]],
  "false of the code: NaN and null ranges are undefined behaviour, float to float gives 0, shifts precede their checks, the vectorised version inverts the sign of large values and rounds halves to even (proved); the true part is C37")

ST = "Verif.Sorter."
c("C38", "proved", [ST+x for x in ["C38_partial_sort","C38_history","C38_destructive","C38_defaults","C38_make"]],
  "linearly ordered values (no NaN); the vectorised sorter is not modelled")
c("C63", "partial", [ST+x for x in ["C38_partial_sort","C63_three","C63_one","C63_greatest","C63_too_many","C63_overflow"]],
  "false of the code: other sizes ignore values, one value is undefined behaviour, values equal to the greatest of the type and K above the size repeat positions (proved); the true part is C38")

RO = "Verif.Reorderer."
c("C39", "proved", [RO+x for x in ["C39_apply","C39_apply_rev","C39_round_trip","C39_straight"]],
  "the number of elements in a register is a power of two; the lane semantics of mipp::interleave is assumed (MIPP is not in the repository); Reorderer_static is not modelled; the combinations which exchange frames are C64")
c("C64", "partial", [RO+x for x in ["C39_apply_rev","C64_vectorised","C64_exchanged"]],
  "false of the code: with 8 frames and registers of 32 elements frames are exchanged (proved); the condition under which it holds is C39")

PR = "Verif.Prng."
c("C40", "proved", [PR+x for x in ["C40_calls","C40_sequence"]],
  "the vectorised generator is not modelled")
c("C65", "proved", [PR+x for x in ["C65_cc","C65_randd_co","C65_randd_oo"]],
  "IEEE arithmetic with rounding to nearest even")
c("C66", "partial", [PR+x for x in ["C66_randf_co","C66_randf_oo","C66_order"]],
  "false of the code: in single precision 1 is returned for the 128 greatest numbers drawn, exactly, and the 64-bit number depends on the order of evaluation (proved)")
BD = "Verif.BCHDec."
c("C67", "proved", [BD+x for x in ["C67_accepted","C67_decode","C67_corrects","C67_full_length","C67_roundtrip"]],
  "the constructor's range of N is wider: lengths below half of the field are C68; 2t(N-1) < 2^31 excludes the overflow of the product i*j")
c("C68", "partial", [BD+x for x in ["C68_shortened_not_codeword","C68_short_refused"]],
  "false of the code: a shortened code announces non-codewords, and a code shortened below half of its length refuses error-free codewords (witnesses proved)")
RD = "Verif.RSDec."
c("C69", "proved", [RD+x for x in ["C69_accepted","C69_corrects","C69_refuses","C69_full_length","C69_roundtrip"]],
  "shortened codes whose nearest codeword uses the removed positions, lengths below half of the field and symbols as wide as their type are C70")
c("C70", "partial", [RD+x for x in ["C70_shortened_overrun","C70_overrun_witness","C70_short_refused","C70_full_width_ub"]],
  "false of the code: exactly which received words make a shortened decoder write out of bounds is proved, as are the two other faults")
SQ = "Verif.Sequence."
c("C71", "proved", [SQ+x for x in ["C71_build","C71_rejects","C71_unique","C71_dataflow","C71_order_irrelevant"]],
  "sequences without switchers, first thread; copies for other threads, switchers (C36, C61) and exceptions thrown by tasks are not part of this model")
c("C72", "partial", [SQ+x for x in ["C72_firsts_wrong","C72_two_firsts","C72_clone_throws","C72_cycle_overflow","C72_first_fed_ub"]],
  "false of the code: with several first tasks the reported ones are wrong for every program, the usual chain cannot be cloned, a cycle exhausts the stack (proved)")
PS = "Verif.PolarSC."
c("C73", "proved", [PS+x for x in ["C73_constructor","C73_set_frozen","C73_decode","C73_unique","C73_codeword","C73_int8","C73_int16","C73_float","C73_double","C73_functions_int","C73_functions_float"]],
  "the naive SC decoders with one frame; the systematic round trip is for the frozen sets of C11; extreme magnitudes are C74")
c("C74", "partial", [PS+x for x in ["C74_int8_min","C74_float_underflow"]],
  "false of the code: two values -128, or two floats whose product underflows, are decoded as another codeword (proved)")
ML = "Verif.ML."
c("C75", "proved", [ML+x for x in ["C75_constructor","C75_unique","C75_std_hard","C75_naive_hard","C75_naive_refused","C75_soft_hamming","C75_std_soft_float","C75_naive_soft_float","C75_std_soft_int","C75_naive_soft_int"]],
  "the encoder is any function; sizes of 64 bits, infinite inputs and roundings are C76")
c("C76", "partial", [ML+x for x in ["C76_std_64","C76_naive_64","C76_infinite","C76_history","C76_absorbed"]],
  "false of the code: with 64 bits only the null message is tried, with an infinite input the message is that of the previous frame, small inputs are absorbed by large ones (proved)")
CH = "Verif.Chase."
c("C77", "proved", [CH+x for x in ["C77_constructor","C77_tested","C77_unique","C77_soft","C77_hamming","C77_codeword","C77_refused","C77_int","C77_all"]],
  "std::partial_sort is any function that satisfies its specification; the encoder is any function; its sizes, which the constructor does not check, are those of the decoder; frames without a codeword in reach are C78")
c("C78", "partial", [CH+x for x in ["C78_stale","C78_history"]],
  "false of the code: the test found for a previous frame is applied to a frame that cannot be repaired, for every code (proved), so the result depends on the history (witness proved)")
PE = "Verif.Peeling."
c("C79", "proved", [PE+x for x in ["C79_constructor","C79_total","C79_message","C79_kept","C79_sound","C79_cwd","C79_codeword","C79_only","C79_rounds","C79_complete","C79_stopping","C79_history","C79_soft"]],
  "words of bits and unknown symbols of 8, 16 or 32 bits; LLRs for sizes that are multiples of the register; the reference read after its element is erased is taken to give the value still there; the rest is C80")
c("C80", "partial", [PE+x for x in ["C80_blind","C80_late","C80_tail","C80_wide","C80_info"]],
  "false of the code: CWD is 1 for every word without erasures, may be 0 for a word recovered in the last iteration, erased LLRs after the last whole register become known zeros, 64-bit unknown symbols are the bit 0, positions out of range are accepted and read (proved)")
CS = "Verif.Cstl."
c("C81", "proved", [CS+x for x in ["C81_pam","C81_distinct","C81_qam","C81_psk","C81_user"]],
  "the square root, sine, cosine and complex division of the library are parameters; distinctness of PAM points needs a square root between 1 and its argument for arguments from 1; the rest is C82")
c("C82", "partial", [CS+x for x in ["C82_pam","C82_odd","C82_empty","C82_complex","C82_blank"]],
  "false of the code: a PAM of 16 bits or more has only NaN points, a QAM of an odd number of bits gives pairs of words the same point, no bits and blank lines are undefined behaviour, a user constellation is always declared complex (proved)")
MO = "Verif.Modem."
c("C83", "proved", [MO+x for x in ["C83_size","C83_modulate","C83_filter","C83_history","C83_llr","C83_metric","C83_numbers","C83_sign","C83_nearest","C83_recover","C83_pam","C83_turbo","C83_extrinsic","C83_prior0"]],
  "with the max proto of the demodulator (std::max); the soft modulation tmodulate is not modelled; histories without filter and parameters other than the greatest float, the rest is C84")
c("C84", "partial", [MO+x for x in ["C84_filter","C84_first","C84_size","C84_last","C84_nan"]],
  "false of the code: filter makes the next demodulation use a stale scale, the greatest float as first parameter is not seen, the number of symbols is computed in float, points that cannot be sent are counted for an incomplete last symbol, a prior of minus infinity gives NaN (proved)")
BI = "Verif.Bin."
c("C85", "proved", [BI+x for x in ["C85_modulate","C85_filter","C85_history","C85_fast","C85_llr","C85_gain","C85_recover","C85_copy","C85_erasure","C85_unknown","C85_symmetric"]],
  "the logarithm of the library is a parameter (from -200 to (x-1)/2 for x below 1); received values and gains of ordinary magnitude for the accuracy; histories without filter, the rest is C86")
c("C86", "partial", [BI+x for x in ["C86_filter","C86_null","C86_first","C86_ook","C86_gain","C86_nan","C86_one","C86_fast"]],
  "false of the code: filter makes the next demodulation use a stale factor (on the symmetric channel all LLRs are then null), the OOK multiplies by twice the variance instead of dividing and ignores the gain in its threshold, extreme parameters give NaN, the fast BPSK is built for types it cannot modulate (proved)")
SL = "Verif.PolarSCL."
c("C87", "proved", [SL+x for x in ["C87_constructor","C87_decode","C87_history","C87_set_frozen","C87_list","C87_maximum_likelihood","C87_one_path","C87_int8","C87_int16","C87_float","C87_double"]],
  "codes of at least two bits, new frozen bits as many as the previous ones; the sort of the standard library is any function that returns its elements by increasing metrics, the CRC any predicate; bounded sums of magnitudes where the metrics of integers can overflow (stated in each theorem), the rest is C88")
c("C88", "partial", [SL+x for x in ["C88_one_bit","C88_codeword","C88_set_frozen","C88_no_pass","C88_overflow"]],
  "false of the code: codes of one bit are undefined, the plain decoder gives codewords of bit_init, new frozen bits are not checked, without a passing path the path of index 0 is given, integer metrics overflow without noise (proved)")
LB = "Verif.LDPCBP."
c("C89", "proved", [LB+x for x in ["C89_flooding_constructor","C89_layered_constructor","C89_flooding","C89_layered","C89_flooding_history","C89_layered_history"]],
  "for any arithmetic and any update rule given as functions; one frame at a time (not the inter-frame SIMD versions); variables of at most 256 checks for the decoding by flooding, the rest is C91")
c("C90", "proved", [LB+x for x in ["C90_min_sum_float","C90_min_sum_int","C90_normalize","C90_sum_product_sign","C90_recovery_flooding","C90_recovery_layered","C90_symmetry_flooding","C90_symmetry_horizontal"]],
  "recovery and symmetry for MS, OMS and NMS on floating-point numbers; the symmetry when no a posteriori value is null; tanh, atanh, log and exp are any functions")
c("C91", "partial", [LB+x for x in ["C91_degree","C91_wrap","C91_degree_one","C91_depth_history","C91_announced","C91_missed","C91_null_spa","C91_null_lspa"]],
  "false of the code: checks of a variable counted on 8 bits, integer sums wrap around, the depth counter survives from frame to frame, codewords announced without being checked or not announced, null LLRs taken as certain by the sum-product rules (proved)")
BJ = "Verif.BCJR."
c("C92", "proved", [BJ+x for x in ["C92_constructor","C92_siso_alt_short","C92_siso_alt_float","C92_siso_short","C92_siso_float","C92_siho_short","C92_siho_float","C92_maximum_likelihood","C92_recovery_short","C92_recovery_float"]],
  "implementation GENERIC with max as both operators, one frame per wave; with the buffered layout decode_siho replaces the LLRs of the tail parities by the initial value of a vector (stated in parUsed); magnitudes bounded so that nothing overflows or is rounded; the rest is C93")
c("C93", "partial", [BJ+x for x in ["C93_tail_ignored","C93_buffered_not_ml","C93_even_feedback","C93_overflow_short","C93_overflow_char","C93_precision_char"]],
  "false of the code: tail parities not loaded with the buffered layout, even feedback polynomials, overflows and halved branch metrics (proved)")
TB = "Verif.Turbo."
c("C94", "proved", [TB+x for x in ["C94_constructor","C94_permutation","C94_encode","C94_is_codeword","C94_encode_interlaced","C94_is_codeword_interlaced","C94_unique","C94_unique_interlaced","C94_linear"]],
  "sub-encoders of the same message length and of the layout the encoder expects (not checked by the code: C96); is_codeword is stated for the permutation of frame 0")
c("C95", "proved", [TB+x for x in ["C95_decode_short","C95_decode_float","C95_run_exists","C95_recovery","C95_recovery_short","C95_recovery_float","C95_early_termination"]],
  "Decoder_turbo_std with the generic BCJR decoders of C92, one frame per wave; scaling by shifts and CRC checker for the decisions, all the post-processings for the early termination; magnitudes bounded so that nothing overflows or is rounded; the rest is C96")
c("C96", "partial", [TB+x for x in ["C96_encoder_length","C96_encoder_layout","C96_is_codeword_frame","C96_constant_scaling","C96_adaptive_scaling","C96_scaling_asymmetric","C96_self_corrected_history","C96_flip_and_check_short","C96_wrap"]],
  "false of the code: message length and layout of the sub-encoders not checked, permutation of frame 0 in is_codeword, scaling factors converted to integers, state of Self_corrected kept between frames, sort of 20 bits of a shorter message, sums that wrap around (proved)")
PF = "Verif.PolarFast."
c("C97", "proved", [PF+x for x in ["C97_constructor","C97_patterns","C97_int8","C97_int16","C97_float","C97_double","C97_recovers_int8","C97_recovers_int16","C97_recovers_float","C97_recovers_double","C97_total_int8","C97_total_int16"]],
  "sequential functions, one frame per wave; bits are written as 0 and the sign bit (word), which the statements say; new frozen bits of the size and number of the decoder (not checked by the code: C98)")
c("C98", "partial", [PF+x for x in ["C98_small_size","C98_representation","C98_int16_rep","C98_int8_saturation","C98_tie","C98_spc_max","C98_set_frozen_size","C98_set_frozen_count","C98_empty"]],
  "false of the code: sizes under 64 are built but never decoded, other representation of bits, repetition sums that wrap, other results than the naive decoder on ties and saturation, write before the array on saturated parity checks, new frozen bits not checked (proved)")
DB = "Verif.RSCDB."
c("C99", "proved", [DB+x for x in ["C99_constructor","C99_encode","C99_is_codeword","C99_unique","C99_linear","C99_info_bits_pos","C99_trellis"]],
  "bits are mathematical integers; is_codeword for words whose couples are binary (others index the tables out of bounds, as the plain C++ arrays would)")
c("C100", "partial", [DB+x for x in ["C100_encode","C100_is_codeword","C100_sizes"]],
  "false of the code: when the number of couples is a multiple of 7 (DVB-RCS1) or 15 (DVB-RCS2), encode and is_codeword read circ_states[-1] (proved for every message and word)")
c("C101", "proved", [DB+x for x in ["C101_permutation","C101_encode","C101_is_codeword","C101_unique","C101_linear","C101_constructor"]],
  "component encoders of K bits (not checked by the code: C102); the permutation is that of the first frame for all frames (C102)")
c("C102", "partial", [DB+x for x in ["C102_component_size","C102_first_frame"]],
  "false of the code: component encoders of other sizes are accepted, then memory is read out of bounds or the word is refused by is_codeword; the permutations of the other frames are never used (proved)")
TP = "Verif.TurboProduct."
c("C103", "proved", [TP+x for x in ["C103_constructor","C103_encode","C103_unique","C103_all_words","C103_linear"]],
  "sizes fit in an int; fields given by primitive polynomials, as in C16; read orders from the bottom: C104")
c("C104", "partial", [TP+x for x in ["C104_read_order","C104_info_bits_pos"]],
  "false of the code: interleavers that read the columns from the bottom are accepted and all messages get the same word; the announced positions are the first ones, where the parity bits are (proved with witnesses)")
MK = "Verif.PolarMK."
c("C105", "proved", [MK+x for x in ["C105_code","C105_code_mono","C105_constructor","C105_encode","C105_linear","C105_injective","C105_can_be_systematic","C105_sys_constructor","C105_systematic_codeword","C105_systematic_iff"]],
  "the encoder is built for the length of its code and the code has a stage: other cases in C106; the number of stages of the one-kernel constructor, a floating-point quotient of logarithms, is arbitrary; determinants are computed without overflow of int")
c("C106", "partial", [MK+x for x in ["C106_stage_ub","C106_even_determinant","C106_singular_kernel_accepted","C106_length_not_checked","C106_not_systematic","C106_no_stage_ub"]],
  "false of the code: even determinants are accepted and messages are lost, stages out of range are undefined behaviour, the length of the encoder is not checked, leaking information sets are accepted (proved, in general or with witnesses)")
BF = "Verif.BitFile."
c("C107", "proved", [BF+x for x in ["C107_sink","C107_sink_rejects","C107_source","C107_source_cyclic","C107_round_trip"]],
  "frame lengths 4 or at least 6 for the source, and for the automatic reset frames of whole bytes or a whole number of frames in the file: other cases in C108; fifo mode and input/output errors are not modelled")
c("C108", "partial", [BF+x for x in ["C108_auto_reset_loses_bits","C108_empty_file_never_returns","C108_short_frames_ub","C108_sink_tail_lost","C108_sink_truncates_before_check","C108_extra_frame"]],
  "false of the code: bits are lost and zeros inserted when the file is started again inside a frame, generate never returns on an empty file, frame lengths 1, 2, 3 and 5 are written out of bounds, the last incomplete byte is never written, an extra frame of zeros precedes is_done() (proved, in general or with witnesses)")
EX = "Verif.Extractor."
c("C109", "proved", [EX+x for x in ["C109_systematic","C109_rejects","C109_add","C109_polar","C109_rsc","C109_rsc_systematic","C109_rsc_message","C109_coset_bit","C109_coset_real"]],
  "frozen sets with exactly K information positions; others, and the parity output of the base class, in C110; LLRs are abstract (sign test, addition and negation are parameters)")
c("C110", "partial", [EX+x for x in ["C110_parity_is_systematic","C110_parity_overflow","C110_polar_overflow","C110_polar_too_few","C110_coset_min"]],
  "false of the code: the parity output of the base class holds the systematic LLRs for every code (the test is inverted) and is overflown for every rate above one half, frozen sets with too many information positions overflow the table and with too few give position 0, the most negative integer LLR keeps its sign (proved, in general)")
RA_ = "Verif.RA."
c("C111", "proved", [RA_+x for x in ["C111_encode","C111_injective","C111_linear","C111_symmetry","C111_decode"]],
  "extends C22 and C49 to linearity, decoder symmetry and objects used on any history of frames; the decoder in exact arithmetic (any ordered group) for frames of at least two bits; fixed-point LLRs and frames of one bit in C112; rounding of floating-point LLRs is not modelled")
c("C112", "partial", [RA_+x for x in ["C112_one_bit","C112_overflow","C112_info_bits_pos"]],
  "false of the code: decoding a frame of one bit accesses index -1 (for every accepted decoder), 8-bit sums overflow and turn an error-free codeword into the complement of its message, the published information positions do not hold the message (proved)")
US = "Verif.User."
c("C113", "proved", [US+x for x in ["C113_source","C113_source_rejects","C113_encoder","C113_encoder_positions","C113_channel_file","C113_channels","C113_flip","C113_random_fast","C113_random_fast_all"]],
  "flips for frames that fill the registers or noise of integers 0 and 1, replaced and added noise with one frame per wave, 'every message' for bits of at most 32 bits; the other cases are C114; binary noise files are not modelled")
c("C114", "partial", [US+x for x in ["C114_source_short","C114_negative_start","C114_encoder_positions","C114_noise_short","C114_add_users","C114_flip_tail","C114_random_64"]],
  "false of the code: uninitialised values for short files, out-of-bounds read for negative start indexes, positions outside the codeword, no noise with added users, zeros not flipped at the end of frames, half of the last bits always zero with 64-bit bits (proved)")
BF = "Verif.LDPCBF."
c("C115", "proved", [BF+x for x in ["C115_omwbf","C115_omwbf_announced","C115_omwbf_codeword","C115_omwbf_symmetric","C115_omwbf_distance","C115_omwbf_worst","signs_int","signs_float","C115_ppbf","C115_ppbf_announced","C115_ppbf_codeword","C115_ppbf_symmetric"]],
  "the arithmetic of the weighted decoder is a parameter whose sign laws are proved for saturating integers and for IEEE floats; the random source of the probabilistic decoder is any state machine; the other cases are C116")
c("C116", "partial", [BF+x for x in ["C116_no_iteration","C116_last_flip","C116_wide_check","C116_depth","C116_no_syndrome","C116_last_update","C116_not_bits"]],
  "false of the code: every word announced with no iteration, codewords of the last flip not announced, checks of 256 variables ignored, words announced that were updated after the check, undefined behaviour for values that are not bits (proved)")
GA = "Verif.Gallager."
c("C117", "proved", [GA+x for x in ["C117_hard","C117_soft","C117_constructor","C117_announced","C117_codeword","C117_symmetric","C117_history","C117_extrinsic"]],
  "the decoder E on 64-bit values is excluded by a hypothesis (C118), variables have at most 256 checks")
c("C118", "partial", [GA+x for x in ["C118_wide","C118_unchecked","C118_last","C118_depth","C118_intrinsic"]],
  "false of the code: E on 64-bit values decides 0 everywhere, words announced without a check, the last word not checked, valid words counted across frames, messages of B that depend on their target (proved)")
AL = "Verif.AList."
c("C119", "proved", [AL+x for x in ["C119_read_write","C119_sound","C119_no_ub","C119_third","C119_info","C119_infoKN","C119_info_sound"]],
  "files are lists of lines of words; numbers fit in an int")
c("C120", "partial", [AL+x for x in ["C120_empty_unreadable","C120_columns_ignored","C120_format3_ub","C120_format3_refused"]],
  "false of the code: matrices without connections are written but never readable, the column lists are not read, the third format compares the number of degrees with the number of rows (proved)")
FZ = "Verif.Frozen."
c("C121", "proved", [FZ+x for x in ["C121_generate","C121_nested","C121_size","C121_assert","C121_file","C121_5G","C121_5G_generate","C121_BEC","C121_GA","C121_best","C121_BEC_mean"]],
  "the numeric formulas are parameters; the mean is proved for exact transforms; files are lists of words")
c("C122", "partial", [FZ+x for x in ["C122_too_many","C122_negative","C122_truncated","C122_file","C122_5G_ub","C122_length"]],
  "false of the code: the sizes are not checked and the files are accepted without verification of the channels (proved)")
DU = "Verif.Dumper."
c("C123", "proved", [DU+x for x in ["C123_registered","C123_recorded","C123_files","C123_reduction","C123_source","C123_encoder","C123_channel","C123_int"]],
  "memory is modelled by bytes; text files of integers only; the decoding of floating-point bytes is a parameter")
c("C124", "partial", [DU+x for x in ["C124_threshold","C124_alignment","C124_extension","C124_not_opened","C124_large","C124_binary_header","C124_binary_as_text"]],
  "false of the code: one threshold for all the areas, overwritten files, silent failures, and undefined behaviour of the reader of noise (proved)")
c("C125", "proved", [R+x for x in ["C125_check","C125_divisible","C125_build_extract"]],
  "the vector operations are modelled element by element; the elements of checked frames are 0 or 1")
c("C126", "partial", [R+x for x in ["C126_layout","C126_accepts_errors","C126_values"]],
  "false of the code: the frames are built one after the other and checked interleaved (witnesses); check_packed is not implemented")
CH = "Verif.Channel."
c("C127", "proved", [CH+x for x in ["C127_call","C127_users","C127_replay","C127_rayleigh","C127_gains","C127_gains_file"]],
  "the generators of random values are parameters, the operations on reals are parameters; the Rayleigh channel with added users is not modelled")
c("C128", "partial", [CH+x for x in ["C128_last_twice","C128_wrong_gain","C128_empty","C128_garbage"]],
  "false of the code: the last gain is read twice when an end of line follows it, an empty file gives an uninitialised gain, a token that is not a number makes the reading endless")
HD = "Verif.HistDump."
c("C129", "proved", [HD+x for x in ["C129_cumulative","C129_values","C129_intervals","C129_no_loss"]],
  "the counts of the lines; the normalisation and the formatting of the numbers are not modelled, the rung of a key is a parameter")
c("C130", "partial", [HD+x for x in ["C130_last_line","C130_errors","C130_borders","C130_single"]],
  "false of the code: the line of the right border includes the count of the last value inside of the range, and that of the left border when nothing is inside")
SI = "Verif.Simple."
c("C131", "proved", [SI+x for x in ["C131_operators","C131_reduce","C131_min","C131_initializer","C131_initializer_safe","C131_finalizer"]],
  "the operations are parameters; the reducer with equal input and output types; the initializer for histories without a call that gives a wrong size for one frame (see C132)")
c("C132", "partial", [SI+x for x in ["C132_narrow","C132_not_atomic"]],
  "false of the code: intermediate results are cast to the input type, a refused set_init_data changes the frames before the one of the wrong size")
EV = "Verif.Events."
c("C133", "proved", [EV+x for x in ["C133_calls","C133_extremes","C133_monotone","C133_channels","C133_logarithm"]],
  "the fast generator of events, with MT19937 in each lane and IEEE arithmetic; the generators of the standard library, GSL and MKL are not modelled")
c("C134", "partial", [EV+x for x in ["C134_one","C134_rare"]],
  "false of the code: randf_co and randf_oo of the vector generator reach 1; any positive probability gives an event for the number 0")
GA = "Verif.Gaussian."
c("C135", "proved", [GA+x for x in ["C135_calls","C135_scale","C135_quiet","C135_channel"]],
  "the fast generator for floats and aligned buffers; log, sqrt, sin and cos are parameters, assumed finite on the values proved to be drawn in C135_quiet only")
c("C136", "partial", [GA+"C136_frames"],
  "false of the code when alignment is that of a register: MIPP, which defines it, is not in the repository")
NU = "Verif.Numeric."
c("C137", "proved", [NU+x for x in ["C137_integrals","C137_cumulated","C137_linear"]],
  "on rational numbers: rounding is not modelled; the functions of abstract integrands and the nearest interpolation are not modelled")
c("C138", "partial", [NU+x for x in ["C138_after_last","C138_trapz"]],
  "false of the code: proved for all inputs that an ordinate is counted twice, and that the abscissa after the last one is read")
DI = "Verif.Distrib."
c("C139", "proved", [DI+x for x in ["C139_cdf","C139_noise","C139_refused"]],
  "mode SUMMATION and linear interpolation, on rational numbers; the points are given sorted; with the sort of the points: C140_distribution")
MU = "Verif.Mutual."
c("C140", "proved", [MU+x for x in ["C140_sort","C140_distribution","C140_closest"]],
  "one ordinate per abscissa, on rational numbers; std::lower_bound is modelled by its result on a sorted range")
c("C141", "partial", [MU+"C141_last_point_lost"],
  "false of the code, so it is not proved: the theorem is a counterexample for all lists without repetition; mutual_unique removes the last point. The function has no caller in the repository")
