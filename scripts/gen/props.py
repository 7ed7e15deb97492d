import json
P=[]
def p(id,title,statement,quant,why,anchors):
    P.append(dict(id=id,title=title,statement=statement,quantifier=quant,why_tests_cant=why,anchors=anchors))
I="src/Tools/Interleaver/"
p("C01","Deinterleaving undoes interleaving",
 "For every interleaver whose lookup table for each frame is a permutation of 0..K-1, `deinterleave(interleave(x)) = x` and `interleave(deinterleave(x)) = x`, for every frame of the batch, whatever the number of frames, including the uniform mode where each frame of the batch uses its own table; no buffer is read or written out of bounds.",
 "every size K, every number of frames, every permutation table, every element value, uniform and non-uniform mode",
 "There are K! tables for every K and unbounded K and frame counts; a test fixes a few.",
 ["include/Tools/Interleaver/Interleaver_core.hxx: Interleaver_core::refresh, init, get_lut, get_lut_inv","include/Module/Interleaver/Interleaver.hxx: Interleaver::_interleave, interleave, deinterleave"])
p("C02","Every generated interleaver table is a permutation",
 "Whenever the constructor of an interleaver core accepts its parameters, the table it publishes is a permutation of 0..K-1: identity, row-column and column-row in the four read orders, random, random-column and golden for any shuffle/sort outcome, user tables accepted by the reader, every LTE size, every CCSDS size, every DVB-RCS1 size, every DVB-RCS2 size.",
 "all sizes, all rows x cols factorizations, all read orders, all shuffle outcomes, the whole tables of standards",
 "Sizes and shuffles are unbounded, and the standard tables are only checked by tests for one or two rows.",
 [I+"NO/Interleaver_core_NO.cpp",I+"Row_column/Interleaver_core_row_column.cpp",I+"Column_row/Interleaver_core_column_row.cpp",I+"Random/Interleaver_core_random.cpp",I+"Random_column/Interleaver_core_random_column.cpp",I+"Golden/Interleaver_core_golden.cpp",I+"User/Interleaver_core_user.cpp",I+"LTE/Interleaver_core_LTE.cpp",I+"CCSDS/Interleaver_core_CCSDS.cpp",I+"ARP/Interleaver_core_ARP_DVB_RCS1.cpp",I+"ARP/Interleaver_core_ARP_DVB_RCS2.cpp"])
p("C03","User interleaver files: accepted exactly when they are permutations",
 "Reading an interleaver file either produces permutations of 0..size-1 only, or throws; and it accepts every file that lists permutations.",
 "every file content (any number of tables, any entries)",
 "The space of malformed files is unbounded.",
 [I+"User/Interleaver_core_user.cpp: Interleaver_core_user::read_lut"])
p("C04","CRC build then check succeeds, extraction returns the payload",
 "For every generator polynomial and every payload, the frame produced by `build` starts with the payload unchanged, is accepted by `check`, and `extract` returns the payload.",
 "every polynomial (any degree), every payload length and content",
 "Unbounded payload lengths and contents.",
 ["src/Module/CRC/Polynomial/CRC_polynomial.cpp: _build, _check, _extract, _generate"])
p("C05","CRC check accepts exactly the multiples of the generator polynomial",
 "`check` accepts a word of K+size bits if and only if, read as a polynomial over GF(2), it is divisible by the generator polynomial. Hence an error pattern added to a valid frame goes unnoticed iff it is itself a multiple of the generator; every single-bit error and every burst of length at most `size` is detected when the generator has constant term 1.",
 "every polynomial, every word, every error pattern",
 "Exponentially many error patterns.",
 ["src/Module/CRC/Polynomial/CRC_polynomial.cpp: _generate, _check"])
p("C06","Fast CRC and bitwise CRC agree",
 "For every supported polynomial (degree 1..32) and every payload of any length, the table driven CRC appends exactly the bits the bit-serial CRC appends, and its `check` gives the same verdict on every word.",
 "every polynomial of degree <= 32, every payload",
 "2^32 polynomials and unbounded payloads.",
 ["src/Module/CRC/Polynomial/CRC_polynomial_fast.cpp: CRC_polynomial_fast ctor, compute_crc_v3, _build, _check"])
p("C07","Bit packing and unpacking are inverse",
 "Packing bits into symbols of Nbps bits and unpacking the result with the same bit order returns the original bits, for any number of bits (also when not a multiple of Nbps), msb- or lsb-first, any number of frames; and every packed symbol is < 2^Nbps.",
 "every bit vector, frame count, symbol width, bit order",
 "Unbounded lengths.",
 ["include/Tools/Algo/Bit_packer.hxx: Bit_packer::_pack, _unpack, pack, unpack"])
p("C08","In-place bit unpacking",
 "The in-place overload of `Bit_packer::unpack` produces, for every frame, the bits the out-of-place overload produces, and never reads or writes outside its buffers.",
 "every buffer, every frame count",
 "Out-of-bounds reads are silent in tests.",
 ["include/Tools/Algo/Bit_packer.hxx: Bit_packer::unpack (in place)","src/Module/CRC/Polynomial/CRC_polynomial.cpp: _check_packed"])
p("C09","Polar encoding is the n-fold Kronecker power transform, linear and its own inverse",
 "For N = 2^n, encoding computes x_j = sum over i containing j bitwise of u_i (mod 2); encoding is GF(2)-linear and applying it twice returns the input.",
 "every n, every input word",
 "2^N words for every N.",
 ["src/Module/Encoder/Polar/Encoder_polar.cpp: light_encode, _encode, convert"])
p("C10","Polar codeword test",
 "`is_codeword` returns true exactly for the words in the image of the encoder.",
 "every N, every frozen set, every word",
 "2^N words and 2^N frozen sets.",
 ["src/Module/Encoder/Polar/Encoder_polar.cpp: is_codeword"])
p("C11","Systematic polar encoding exposes the information bits",
 "The systematic encoder outputs a codeword of the polar code whose restriction to the information positions is the message, for frozen sets produced by a polar construction (information set closed under bitwise domination).",
 "every N, every such frozen set, every message",
 "Exponentially many frozen sets and messages.",
 ["src/Module/Encoder/Polar/Encoder_polar_sys.cpp: _encode"])
p("C12","RSC encoder terminates its trellis",
 "For every generator polynomial pair, every message of every length and every starting configuration, after the tail bits the encoder state is zero, so the 'bad termination' exception is never thrown.",
 "every memory size, all polynomials, all messages",
 "Unbounded lengths, all polynomials.",
 ["src/Module/Encoder/RSC/Encoder_RSC_sys.cpp: __encode","src/Module/Encoder/RSC/Encoder_RSC_generic_sys.cpp: Encoder_RSC_generic_sys, inner_encode, tail_bit_sys"])
p("C13","RSC encoder is systematic and linear",
 "The message can be read back from the codeword at the documented positions (buffered or interleaved layout) and the codeword of the XOR of two messages is the XOR of the codewords.",
 "all polynomials, all messages, both layouts",
 "Unbounded lengths.",
 ["src/Module/Encoder/RSC/Encoder_RSC_sys.cpp: _encode, __encode, get_info_bits_pos"])
p("C14","RSC codeword test",
 "`is_codeword` accepts every encoder output and rejects every word whose parity or tail part differs from the encoding of its systematic part.",
 "all polynomials, all words",
 "Unbounded words.",
 ["src/Module/Encoder/RSC/Encoder_RSC_sys.cpp: is_codeword"])
p("C15","The exported RSC trellis describes the encoder",
 "In the trellis returned by `get_trellis`, every state has exactly two predecessors, the listed branches are exactly the encoder transitions, and the parities listed are the encoder's.",
 "every memory size and polynomial pair, every state",
 "All polynomials and sizes.",
 ["src/Module/Encoder/RSC/Encoder_RSC_sys.cpp: get_trellis"])
p("C16","BCH encoding: systematic cyclic codeword",
 "For every generator polynomial with the code's redundancy, the encoder keeps the message in the systematic positions and outputs a word that is a polynomial multiple of the generator; encoding is linear; `is_codeword` accepts exactly the multiples of the generator.",
 "every generator polynomial, every message and word",
 "2^N words.",
 ["src/Module/Encoder/BCH/Encoder_BCH.cpp: __encode, _encode, is_codeword"])
p("C17","Galois field tables are the field GF(2^m)",
 "For each supported m the exponent/logarithm tables are mutually inverse on non-zero elements, the powers of alpha enumerate all 2^m-1 non-zero elements exactly once, and multiplication through logarithms is associative and distributes over XOR.",
 "all m in the polynomial table, all field elements",
 "Tests look at one or two m; a wrong primitive polynomial is only visible on the whole cycle.",
 ["src/Tools/Math/Galois.cpp: select_polynomial, generate_gf"])
p("C18","BCH/RS generator polynomials have the designed roots",
 "The generator polynomial built for correction power t vanishes at alpha^1..alpha^2t (narrow-sense), for every field and t accepted by the constructor, hence any non-zero codeword has at least 2t+1 non-zero symbols.",
 "all m, all t",
 "All fields and t.",
 ["src/Tools/Code/BCH/BCH_polynomial_generator.cpp","src/Tools/Code/RS/RS_polynomial_generator.cpp"])
p("C19","RS encoding: systematic codeword",
 "For a code of full length 2^m-1 the RS encoder keeps the message bits after the 2t parity symbols and outputs a word whose symbols vanish at alpha^1..alpha^2t; `is_codeword` accepts exactly the words that do.",
 "all fields narrower than the element type, all t, all messages, words and previous buffer contents",
 "(2^m)^K messages.",
 ["src/Module/Encoder/RS/Encoder_RS.cpp: __encode, _encode, ctor info_bits_pos"])
p("C20","Recorded words and the genius BCH decoder: corrects exactly up to t errors",
 "A recording encoder returns, for each frame of a whole wave, the codeword it produced for it; the genius BCH decoder built on it outputs the transmitted word if the received word differs from it in at most t positions, else the received word, and its last-is-codeword flag says which; it cannot be built on an encoder that does not record.",
 "all words, frames, waves, all t",
 "2^N pairs of words and unbounded histories of waves.",
 ["src/Module/Decoder/BCH/Genius/Decoder_BCH_genius.cpp","include/Module/Encoder/Encoder.hxx"])
p("C21","Repetition code: encode/decode and codeword test",
 "Every copy of each bit equals the message bit in both layouts; `is_codeword` accepts exactly such words; decoding a word whose soft values have the right sign returns the message, and in general the sign of the sum of the copies.",
 "every K, repetition count, message, soft values",
 "Unbounded sizes and values.",
 ["src/Module/Encoder/Repetition/Encoder_repetition_sys.cpp","src/Module/Decoder/Repetition/Decoder_repetition.cpp","src/Module/Decoder/Repetition/Decoder_repetition_std.cpp"])
p("C22","RA encoder: accumulate of interleaved repetitions; uniquely decodable",
 "The RA encoder output satisfies x_0 = r_pi(0), x_i = x_{i-1} xor r_pi(i) where r is the message with each bit repeated, and the message can be recovered from the output for every permutation.",
 "every K, repetition, permutation, message",
 "Unbounded.",
 ["src/Module/Encoder/RA/Encoder_RA.cpp"])
p("C23","Puncturing then depuncturing keeps transmitted values and neutralises the rest",
 "For the LDPC, turbo and polar (shortlast) puncturers: the number of values output by puncture is N; depuncture followed by puncture is the identity; depuncture(puncture(x)) equals x at transmitted positions and the documented neutral value elsewhere.",
 "every pattern, frame size, value",
 "Patterns and sizes are unbounded.",
 ["src/Module/Puncturer/LDPC/Puncturer_LDPC.cpp","src/Module/Puncturer/Turbo/Puncturer_turbo.cpp","src/Module/Puncturer/Polar/Puncturer_polar_shortlast.cpp","src/Module/Puncturer/Turbo_DB/Puncturer_turbo_DB.cpp"])
p("C24","LDPC encoders only output codewords",
 "For the encoders built from a generator matrix orthogonal to the parity check matrix, from a double-diagonal (IRA) matrix, from a quasi-cyclic or any other parity check matrix (inversion of the parity part, method LU_DEC) and from the DVB-S2 tables, every encoder output satisfies all parity checks and the message is found at the information positions. The constructors that invert the parity part throw iff the message does not determine the codeword. The codeword test accepts exactly the codewords.",
 "every matrix of the stated shape, every message, every word width",
 "Unbounded matrices and messages.",
 ["src/Module/Encoder/LDPC/Encoder_LDPC.cpp","src/Module/Encoder/LDPC/From_IRA/Encoder_LDPC_from_IRA.cpp","src/Module/Encoder/LDPC/From_QC/Encoder_LDPC_from_QC.cpp","src/Module/Encoder/LDPC/DVBS2/Encoder_LDPC_DVBS2.cpp","src/Module/Encoder/LDPC/From_H/Encoder_LDPC_from_H.cpp"])
p("C25","Syndrome check is the parity check",
 "The hard and soft syndrome checks return true iff every check equation is satisfied by the bits (signs).",
 "every matrix, every word",
 "Unbounded.",
 ["include/Tools/Code/LDPC/Syndrome/LDPC_syndrome.hxx: check_hard, check_soft"])
p("C26","Sparse matrix connection bookkeeping",
 "After any sequence of add/remove/transpose/turn/resize operations (resizes ask for at least one row and one column) the row and column adjacency lists describe the same set of connections without duplicates, the connection count is the size of that set and the max degrees are the true maxima; an operation that throws leaves the matrix unchanged.",
 "every history of operations",
 "Histories are unbounded.",
 ["src/Tools/Algo/Matrix/Sparse_matrix/Sparse_matrix.cpp","src/Tools/Algo/Matrix/Matrix.cpp"])
p("C27","QC expansion",
 "A description is accepted iff it is complete. The matrix read from a quasi-cyclic description of lifting size Z with entries from -1 to 32767 has a connection (check r*Z+k, variable c*Z+l) iff the base entry is some shift s >= 0 with l = (k+s) mod Z.",
 "every base matrix, every Z, all positions",
 "Unbounded.",
 ["src/Tools/Code/LDPC/QC/QC.cpp: QC::read"])
p("C28","Error counters are exact",
 "After any sequence of check_errors calls, the monitor's counts are the number of frames compared, the number of frames with at least one differing bit, and the total number of differing bits; resetting zeroes them.",
 "every history of frame pairs",
 "Unbounded histories.",
 ["src/Module/Monitor/BFER/Monitor_BFER.cpp: __check_errors, _check_errors, reset","include/Tools/Perf/distance/hamming_distance.hxx"])
p("C29","Stop criteria",
 "The simulation loop stops as soon as, and only when, the frame-error limit or the frame-count limit is reached (a zero limit never triggers), and once reached it stays reached while counting continues.",
 "every history, every limit",
 "Unbounded histories.",
 ["src/Module/Monitor/BFER/Monitor_BFER.cpp: is_done, fe_limit_achieved, frame_limit_achieved"])
p("C30","Reduction over monitors is the sum",
 "Reducing a list of monitors yields the sum of all their counters, independent of grouping and order, and equals the counters a single monitor would have had over the concatenated history.",
 "any number of threads, any distribution of frames over them",
 "All partitions of all histories.",
 ["include/Tools/Monitor/Monitor_reduction.hxx","src/Module/Monitor/BFER/Monitor_BFER.cpp: collect, copy, operator+="])
p("C31","Pipeline adaptors lose, duplicate and reorder nothing",
 "Under every interleaving of one producer and n consumers (1-to-n) or n producers and one consumer (n-to-1), the k-th frame pushed is delivered to worker (k mod n) as its (k div n)-th frame, unchanged; the concatenation in round robin order of what workers handled is the input order.",
 "all schedules, all n, all buffer sizes, all frame contents, unbounded runs",
 "Schedules are unbounded; tests see a few.",
 ["src/Module/Adaptor/Adaptor_1_to_n.cpp","src/Module/Adaptor/Adaptor_n_to_1.cpp","include/Module/Adaptor/Adaptor.hxx"])
p("C32","Adaptor slots are race free and bounded",
 "At every reachable state a buffer holds at most buffer_size frames and a slot is never written by the producer while the consumer reads it.",
 "all schedules",
 "Data races are not observable by tests.",
 ["src/Module/Adaptor/Adaptor_1_to_n.cpp","src/Module/Adaptor/Adaptor_n_to_1.cpp"])
p("C33","Adaptor waiting: no lost wake-up, no deadlock, cancel releases everybody",
 "A thread put to sleep on an empty/full buffer is woken once the condition changes; in no reachable state are all threads asleep; after cancel_waiting on the object a thread uses, that thread is woken if it sleeps, never goes past the wait and throws.",
 "all schedules",
 "Lost wake-ups occur on rare schedules.",
 ["src/Module/Adaptor/Adaptor_1_to_n.cpp: wait_push, wait_pull, wake_up_*, cancel_waiting","src/Module/Adaptor/Adaptor_n_to_1.cpp"])
p("C34","Executing a task wave by wave equals executing it frame by frame",
 "For a task whose work on each frame depends only on that frame, `exec()` over n_frames split into waves of any size yields for each frame the same output as processing that frame alone; a stopping status stops the remaining waves and leaves their status unknown; executing one frame id (other than the first when waves hold several frames) modifies only that frame's output.",
 "every n_frames, wave size, codelet, data",
 "All wave splits and codelets.",
 ["src/Module/Task.cpp: Task::_exec","src/Module/Module.cpp: _set_n_frames, _set_n_frames_per_wave"])
p("C35","Socket bindings stay consistent",
 "After any history of bind/unbind/reset calls, an input is bound to an output iff it appears exactly once in the output's list, bound sockets have the same type, size and data pointer; a call that throws leaves bindings unchanged; reset of a socket to which at most one other is bound leaves both unbound and touches no other.",
 "every history of operations on any number of sockets",
 "Unbounded histories.",
 ["include/Module/Socket.hxx: bind, unbind, reset"])
p("C36","Loop control modules",
 "An Iterator with limit L lets the loop run exactly L times per cycle; Controller_limit takes its first path exactly `limit` times and the other afterwards; Controller_cyclic visits paths round robin; a Switcher copies the data of the selected path (of at most 128); a loop built with them runs its body exactly L times at each execution of the sequence.",
 "every limit, every history",
 "Unbounded histories.",
 ["src/Module/Iterator/Iterator.cpp","src/Module/Controller/Controller_limit/Controller_limit.cpp","src/Module/Controller/Controller_cyclic/Controller_cyclic.cpp","src/Module/Switcher/Switcher.cpp"])
p("C37","Fixed point quantization saturates symmetrically and is monotone",
 "For every real input the quantizer output lies in [-(2^(s-1)-1), 2^(s-1)-1], is monotone in the input, odd, and equals round-half-away(2^f*y) when that is in range.",
 "every input value, every (s, f)",
 "Inputs are a continuum.",
 ["src/Module/Quantizer/Pow2/Quantizer_pow2.cpp","src/Module/Quantizer/Custom/Quantizer_custom.cpp"])
p("C38","Tree sorter returns the K smallest",
 "partial_sort returns the positions of the K smallest values in ascending order without repetition, for power-of-two sizes and values below the type's maximum.",
 "every size, every values, every K",
 "Unbounded inputs.",
 ["include/Tools/Algo/Sort/LC_sorter.hxx"])
p("C39","Frame reordering is a transposition and its inverse undoes it",
 "Reorderer::apply puts element i of frame f at i*n_frames+f for every n_frames, including the register-level vectorised path, and apply_rev undoes it.",
 "every frame count, length, register width",
 "All register widths and lengths.",
 ["include/Tools/Perf/Reorderer/Reorderer.hxx"])
p("C40","The pseudo random generator is MT19937",
 "For every seed, the i-th 32-bit number equals the tempered i-th term of the MT19937 recurrence, despite loop unrolling.",
 "every seed, every index",
 "2^32 seeds, unbounded sequences.",
 ["src/Tools/Algo/PRNG/PRNG_MT19937.cpp"])
p("C41","Interleaving in the interlaced (reordering) layout",
 "With the frame-interlaced layout used by the SIMD decoders (element i of frame f at i*n_frames+f), interleaving then deinterleaving with frame_reordering enabled gives the frames back and stays in bounds, for every number of frames and every wave size.",
 "every size, number of frames, wave size and content",
 "Wave and register widths are platform parameters; tests run one of them.",
 ["include/Module/Interleaver/Interleaver.hxx: Interleaver::_interleave_reordering"])
p("C42","Checking a packed frame agrees with checking its bits",
 "check_packed on packed bytes gives the verdict that check gives on the unpacked bits, and stays in bounds, for the bitwise and the table-driven CRC.",
 "every polynomial, payload size and packed content",
 "Unbounded contents and sizes.",
 ["src/Module/CRC/Polynomial/CRC_polynomial.cpp: CRC_polynomial::_check_packed","src/Module/CRC/Polynomial/CRC_polynomial_fast.cpp: CRC_polynomial_fast::_check_packed"])
p("C43","BCH and RS minimum distance",
 "Two different words accepted by the BCH codeword test differ in at least 2t+1 bits; two words accepted by the full-length RS test that differ in a symbol differ in at least 2t+1 symbols. Hence any pattern of at most t errors leaves the transmitted word the only nearest one.",
 "all fields, all t, all pairs of words",
 "Pairs of words out of 2^N.",
 ["src/Module/Encoder/BCH/Encoder_BCH.cpp: is_codeword","src/Module/Encoder/RS/Encoder_RS.cpp: is_codeword","src/Tools/Code/BCH/BCH_polynomial_generator.cpp","src/Tools/Code/RS/RS_polynomial_generator.cpp"])
p("C44","RS encoder: every accepted configuration yields codewords and correct positions",
 "Whatever (K, N, field) the RS encoder accepts, including shortened codes and fields as wide as the element type, its output is a codeword of the RS code and the published information bit positions are where the message is.",
 "all accepted configurations, all messages",
 "The failing configurations are not among the tested ones.",
 ["src/Module/Encoder/RS/Encoder_RS.cpp: ctor, __encode, info_bits_pos"])
p("C45","Vectorised Hamming distance is exact",
 "The SIMD Hamming distance returns the number of positions whose truth values differ, for every size and register width: none of the 8-, 16- or 32-bit lane counters overflows.",
 "every pair of words, every size below 2^31, every register width, 8/16/32/64-bit elements",
 "An overflow needs long words on a particular register width.",
 ["include/Tools/Perf/distance/distance.hxx","include/Tools/Perf/distance/hamming_distance.hxx","include/Tools/Perf/distance/Boolean_diff.hxx"])
p("C46","Hard decision is the sign test",
 "hard_decide sets bit i to 1 exactly when value i is negative and writes nothing beyond the size, for every size and register width, on words without negative zeros.",
 "every word without negative zeros, every size and register width",
 "Sizes and register widths are unbounded.",
 ["src/Tools/Perf/common/hard_decide.cpp"])
p("C47","Hard decision does not depend on the position of a value",
 "hard_decide and hard_decide_unk give the same answer for the same value at every position, and hard_decide_unk marks every unknown value as unknown.",
 "every word (including negative zeros and unknown values), every size and register width",
 "Depends on the remainder of the size modulo the register width.",
 ["src/Tools/Perf/common/hard_decide.cpp"])
p("C48","Genius decoding works for partial waves, reports CWD, and exists for Reed-Solomon",
 "A recording encoder works for every number of frames and frames per wave; the CWD output of a genius decoder is 1 exactly when the output is the transmitted codeword; the genius RS decoder decodes.",
 "every wave shape, word",
 "Needs every frame count and word.",
 ["include/Module/Encoder/Encoder.hxx","src/Module/Decoder/BCH/Genius/Decoder_BCH_genius.cpp","src/Module/Decoder/RS/Genius/Decoder_RS_genius.cpp"])
p("C49","The RA decoder recovers the message from any word with the right signs",
 "For every repeat-accumulate code with N >= 2, the decoder returns the transmitted message whenever every received value has the sign of the transmitted bit, whatever the magnitudes, the interleaver history, the number of iterations and earlier decodings.",
 "every K, N, permutation, message, magnitudes, iteration count, decoder state",
 "Iterative message passing over unbounded sizes and real magnitudes.",
 ["src/Module/Decoder/RA/Decoder_RA.cpp","src/Module/Encoder/RA/Encoder_RA.cpp"])
p("C50","Every puncturer that the constructors accept transmits exactly N values",
 "For every size and pattern accepted by the LDPC, turbo and double-binary turbo puncturers, puncture writes each of the N output values and no other memory, and depuncture writes each of the N_cw output values.",
 "every accepted K, N, tail length, pattern and rate",
 "Acceptance conditions and loop bounds are computed separately; only special sizes disagree.",
 ["src/Module/Puncturer/LDPC/Puncturer_LDPC.cpp","src/Module/Puncturer/Turbo/Puncturer_turbo.cpp","src/Module/Puncturer/Turbo_DB/Puncturer_turbo_DB.cpp"])
p("C51","Shortened polar codewords are zero on the positions that are not sent",
 "From any ranking of the channels, the frozen bits generated by the polar shortening puncturer have exactly K information positions, the K best ranked among the N sent positions; the polar encoder accepts them and every encoded word is zero on the positions that are not sent, which is what depuncturing assumes.",
 "every K, N, channel ranking and message",
 "The set of rankings and messages is exponential; the claim rests on the triangular structure of the transform.",
 ["src/Module/Puncturer/Polar/Puncturer_polar_shortlast.cpp","src/Module/Encoder/Polar/Encoder_polar.cpp"])
p("C52","Products, orthogonality test and column interleaving of sparse matrices",
 "The sparse products return the product over GF(2) or throw when the sizes disagree. The generator / parity check test returns true iff every generator row satisfies every check. Interleaving puts the requested column at each position, moves the information positions with their columns, and keeps generator and parity check matrices orthogonal.",
 "every pair of matrices, every permutation",
 "Unbounded matrices.",
 ["src/Tools/Algo/Matrix/matrix_utils.cpp: bgemm, bgemmt","src/Tools/Code/LDPC/Matrix_handler/LDPC_matrix_handler.cpp: check_GH, interleave_matrix, interleave_info_bits_pos"])
p("C53","Dense binary matrices: conversions, transposition, resize, products, inversion",
 "Converting between sparse and dense matrices keeps the connections, transposition and resizing move every entry to its place (resizing anchored at the top right does not at the same time add rows and remove columns), the products are those over GF(2), and the inversion of a square matrix returns its inverse or throws iff some non-null vector is sent to zero.",
 "every matrix and every size",
 "Unbounded matrices.",
 ["src/Tools/Algo/Matrix/Full_matrix/Full_matrix.cpp","include/Tools/Algo/Matrix/matrix_utils.hxx","src/Tools/Code/LDPC/Matrix_handler/LDPC_matrix_handler.cpp: LU_decomp"])
p("C54","Dense matrices of every size can be resized, modified and used to build generator matrices",
 "Resizing a dense matrix from any corner and to any size gives a matrix to which connections can be added, and the default method (IDENTITY) computes a generator matrix of every full rank parity check matrix.",
 "every matrix and every size",
 "Out of bounds accesses to vectors are silent in most tests.",
 ["src/Tools/Algo/Matrix/Full_matrix/Full_matrix.cpp: self_resize","src/Tools/Code/LDPC/Matrix_handler/LDPC_matrix_handler.cpp: transform_H_to_G_identity","src/Module/Encoder/LDPC/From_H/Encoder_LDPC_from_H.cpp"])
p("C55","A module's numbers of frames, waves and socket sizes stay consistent",
 "After any history of set_n_frames, set_n_frames_per_wave and set_single_wave calls on a module whose sockets are not bound (values below 2^24), a call with zero throws and changes nothing, and after any other call the module has the requested numbers, the number of waves is the quotient rounded up, the last wave's size is the remainder, every socket holds exactly n_frames frames, the status socket one entry per wave, and a single-wave module has one wave.",
 "every history of calls and every sizes",
 "Histories are unbounded and the number of waves goes through single precision arithmetic.",
 ["src/Module/Module.cpp: _set_n_frames, _set_n_frames_per_wave, set_n_frames, set_n_frames_per_wave, set_single_wave","src/Module/Task.cpp: update_n_frames, update_n_frames_per_wave"])
p("C56","Corner cases of module and task bookkeeping",
 "Executing frame 0 alone modifies only frame 0 of the outputs; the number of waves is exact for every number of frames; set_n_frames on a module with a bound socket throws and changes nothing.",
 "every module, task and size",
 "Corner cases: first frame, huge sizes, exceptions half way.",
 ["src/Module/Task.cpp: _exec","src/Module/Module.cpp: _set_n_frames"])
p("C57","Histograms count what was added",
 "After any sequence of additions (weighted or not), merges with histograms of the same precision and resets, a histogram reports for each value the number of times it was added since the last reset, the total number of values, and lists its keys in ascending order; histograms of different precisions are not merged.",
 "every history of calls and every value",
 "Counts must be right after every interleaving of additions, merges and resets.",
 ["include/Tools/Algo/Histogram.hxx: add_value, add_values, reset"])
p("C58","Callbacks are called while and only while they are recorded",
 "notify calls, in the order they were recorded, exactly the functions recorded and not removed; the identifier returned by record differs from those of all the functions recorded at that time; unrecord removes exactly the function with this identifier and tells whether there was one.",
 "every history of record and unrecord calls (fewer than 2^32 records)",
 "Depends on the whole history of identifiers.",
 ["include/Tools/Algo/Callback/Callback.hxx: record, unrecord, notify"])
p("C59","Corner cases of monitors",
 "check_errors on one designated frame counts one frame; the number of errors of a call is exact whatever it is; a reduction built from a list containing a null monitor throws; removing twice with the same identifier removes one function only.",
 "every frame identifier, call, list of monitors and identifier",
 "Corner cases of arguments which tests rarely use.",
 ["src/Module/Monitor/BFER/Monitor_BFER.cpp: check_errors","include/Tools/Monitor/Monitor_reduction.hxx: Monitor_reduction","include/Tools/Algo/Callback/Callback.hxx: record"])
p("C60","Corner cases of socket bindings",
 "Resetting an output socket unbinds all the inputs bound to it, however many; a bind call that throws leaves the data pointer unchanged, in fast mode too; bound sockets share their data pointer after any history of bind and unbind calls, whatever the directions of the sockets.",
 "every history of calls",
 "Corner cases: several bound sockets, fast mode, chains of bindings.",
 ["include/Module/Socket.hxx: reset, bind"])
p("C61","Corner cases of iterators, controllers and switchers",
 "After an execution aborted in the middle of a loop the next one runs the loop body the full number of times; the path given by a controller is the one taken by a switcher for every number of paths; every limit and number of paths is accepted or refused with an exception.",
 "every limit, number of paths and abort point",
 "Rare values and exceptions in the middle of a loop.",
 ["src/Module/Iterator/Iterator.cpp","src/Module/Controller/Controller_cyclic/Controller_cyclic.cpp","include/Module/Switcher/Switcher.hxx","src/Tools/Sequence/Sequence.cpp"])
p("C62","Corner cases of quantizers",
 "Every value, NaN included, is quantized to a value of the output type; every range and every position is accepted or refused with an exception; the vectorised quantizer computes the same values as the other one; when the output type is the input type values are not lost.",
 "every value, range and position",
 "Special floating point values and configurations.",
 ["src/Module/Quantizer/Pow2/Quantizer_pow2.cpp","src/Module/Quantizer/Pow2/Quantizer_pow2_fast.cpp","src/Module/Quantizer/Custom/Quantizer_custom.cpp"])
p("C63","Corner cases of the tree sorter",
"partial_sort returns the positions of the K smallest values, without repetition, for any number of values, any values (including the greatest of their type) and any K, or refuses the call.",
"all sorters, numbers of values, values and K",
"Sizes, ties with the greatest value and K are unbounded; the failures depend on which values are equal.",
["include/Tools/Algo/Sort/LC_sorter.hxx: partial_sort, _partial_sort_step1, _partial_sort_step2"])
p("C64","Vectorised deinterleaving of frames",
 "The vectorised reordering of interleaved frames back to separate frames gives each frame its own elements, for every number of frames, type and register width it accepts.",
 "all numbers of frames, element types, register widths and frames",
 "The failing combinations depend on the instruction set the library is compiled for.",
 ["include/Tools/Perf/Reorderer/Reorderer.hxx: apply_rev"])
p("C65","Ranges of the random real numbers",
 "Whatever the 32-bit number drawn, the closed-interval functions of both precisions return a number of [0,1], and in double precision the half-open and open functions return numbers of [0,1) and (0,1).",
 "all 32-bit numbers drawn",
 "The extreme numbers are drawn once every 2^32 calls.",
 ["src/Tools/Algo/PRNG/PRNG_MT19937.cpp: randf_cc, randd_cc, randd_co, randd_oo"])
p("C66","Corner cases of the random numbers",
 "In single precision too the half-open and open functions never return 1; the 64-bit number of a given seed is the same with every compiler.",
 "all 32-bit numbers drawn, both orders of evaluation",
 "1 is returned once every 2^25 calls on average; the order of evaluation is that of the compiler at hand.",
 ["src/Tools/Algo/PRNG/PRNG_MT19937.cpp: randf_co, randf_oo, rand_u64"])
p("C67","BCH decoding up to t errors",
 "Whatever was decoded before, every decoding task of the standard BCH decoder (hard or soft inputs, message or codeword output) terminates without exception or out-of-bounds access, corrects any pattern of at most t errors on any codeword, and reports a success exactly when a codeword of the full-length code is at most t errors away from the received word (completed with zeros when the code is shortened); the output is then this codeword, otherwise the received bits. Encoding, at most t errors, then decoding gives the message back. With the full length, a success means that the output is a codeword.",
 "all fields with a primitive polynomial, all t, all accepted K and N with as many bits as the field (2t(N-1) below 2^31), all received words, all histories of calls",
 "There are 2^N received words and the tables of the iterative algorithm keep their contents between calls.",
 ["src/Module/Decoder/BCH/Standard/Decoder_BCH_std.cpp: Decoder_BCH_std, _decode, _decode_hiho, _decode_hiho_cw, _decode_siho, _decode_siho_cw","src/Module/Decoder/BCH/Decoder_BCH.cpp: Decoder_BCH","include/Tools/Math/utils.hxx: next_power_of_2"])
p("C68","BCH decoding of shortened codes",
 "With a shortened code too, a success (and CWD = 1) means that the output is a codeword; every accepted length decodes at least the words received without error.",
 "all accepted K and N",
 "It takes an error pattern whose completion is corrected in the missing positions, or a length below half of that of the field.",
 ["src/Module/Decoder/BCH/Standard/Decoder_BCH_std.cpp: _decode","src/Module/Decoder/BCH/Decoder_BCH.cpp: Decoder_BCH"])
p("C69","Reed-Solomon decoding up to t symbols",
 "Whatever was decoded before, every decoding task of the standard Reed-Solomon decoder (hard or soft inputs, message or codeword output) corrects any pattern of at most t wrong symbols on any codeword: it terminates without exception or out-of-bounds access, reports a success and a codeword, and outputs the bits of this codeword. When no codeword of the full-length code is at most t symbols away from the received ones it reports a failure and outputs the received bits. With the full length these are the only two cases. Encoding, at most t wrong symbols, then decoding gives the message back.",
 "all fields of the library narrower than the type of the bits, all t, all accepted K and N with as many bits as the field ((2t+1)2^m at most 2^31), all received words, all histories of calls",
 "There are 2^(Nm) received words and the tables of the iterative algorithm keep their contents between calls.",
 ["src/Module/Decoder/RS/Standard/Decoder_RS_std.cpp: Decoder_RS_std, _decode","src/Module/Decoder/RS/Decoder_RS.cpp: Decoder_RS, _decode_hiho, _decode_hiho_cw, _decode_siho, _decode_siho_cw","src/Module/Encoder/RS/Encoder_RS.cpp: _encode"])
p("C70","Reed-Solomon decoding of shortened codes and wide symbols",
 "The standard Reed-Solomon decoder handles every received word of every code that its constructor accepts without accessing memory out of bounds, and accepts codewords received without error.",
 "all accepted decoders, all received words",
 "The faults need a received word near a codeword of the full code with symbols in the removed positions, a length below half of the field, or symbols as wide as their type.",
 ["src/Module/Decoder/RS/Standard/Decoder_RS_std.cpp: _decode","src/Module/Decoder/RS/Decoder_RS.cpp: Decoder_RS"])
p("C71","Order of the tasks of a sequence",
 "A sequence built from first tasks, last tasks and exclusions executes in each round exactly the tasks that the first tasks can feed: the first tasks, in the order given, and every other task once, after all the tasks bound to its inputs, not beyond a last task, nor into an excluded task. The construction terminates; it throws exactly when a requested last task is not among them, or on invalid arguments. In one round each task computes from what its producers wrote in this round, not from what the sockets held before, and the result does not depend on the order in which sockets were bound.",
 "all programs without switchers (any number of tasks, any bindings with at most one per input), all first tasks not fed by the sequence, all last tasks and exclusions, all functions computed by the tasks, all contents of the sockets",
 "The order is the result of a recursive walk that depends on the order of the bindings of the whole program.",
 ["src/Tools/Sequence/Sequence.cpp: init, init_recursive, _exec"])
p("C72","First and last tasks of a sequence, copies, cycles",
 "A sequence reports the first tasks it was built from, reports as last tasks only tasks whose outputs it does not use, can be cloned, and programs with a cycle or a first task fed by another one are handled or refused.",
 "all programs without switchers",
 "The faults need two first tasks, a task bound to several producers or a cycle.",
 ["src/Tools/Sequence/Sequence.cpp: init, init_recursive, clone, update_firsts_and_lasts_tasks"])
p("C73","Successive cancellation decoding of polar codes",
 "Whatever was decoded before and however its frozen bits were changed, the successive cancellation decoder (plain or systematic) terminates on every input without exception or out-of-bounds access, and outputs the result of Arikan's successive cancellation: frozen bits null, the others decided in order from the soft values, each knowing the previous ones; this result is unique and is a codeword. The elementary functions are those of the min-sum approximation. With 8-bit, 16-bit, float or double soft values whose signs are those of a codeword of the polar encoder, it gives back the message and the codeword, as with hard inputs.",
 "all code sizes 2^n, all frozen sets, all soft inputs (integers of the type; floats, infinities included), all histories of calls",
 "The decoding is a recursion on a tree of 2N nodes whose contents survive between calls; there are 2^K codewords and infinitely many soft inputs.",
 ["include/Module/Decoder/Polar/SC/Decoder_polar_SC_naive.hxx: Decoder_polar_SC_naive, set_frozen_bits, _load, _decode_siho, _decode_siho_cw, _store, recursive_decode","include/Module/Decoder/Polar/SC/Decoder_polar_SC_naive_sys.hxx: _store","include/Tools/Algo/Tree/Binary/Binary_tree.hxx: create_nodes","include/Tools/Code/Polar/decoder_polar_functions.hxx: f_LLR, g_LLR, h_LLR","include/Module/Decoder/Decoder_SIHO.hxx: _decode_hiho, _decode_hiho_cw"])
p("C74","Extreme soft values in polar decoding",
 "Inputs whose signs are those of a codeword are decoded as this codeword whatever their magnitudes.",
 "all values of the types of the soft inputs",
 "The faults need the least 8-bit integer or products of floats below the least representable one.",
 ["include/Tools/Code/Polar/decoder_polar_functions.hxx: f_LLR"])
p("C75","Maximum likelihood decoding",
 "Whatever was decoded before and whatever the output contains, the maximum likelihood decoder gives the message whose codeword is nearest to what is received, the first one in the order of integers when several are: in Hamming distance with hard inputs or with the Hamming option, in correlation with quantized inputs, in the distance as computed in single precision with any inputs that are numbers. The naive decoder gives likewise the nearest word among those the encoder declares codewords, and its information bits, and refuses to give the message of an encoder that is not systematic.",
 "all encoders, all sizes below 64 bits to enumerate, all inputs, all histories of calls",
 "There are 2^K codewords to compare for each of infinitely many inputs, and members survive between calls.",
 ["src/Module/Decoder/Generic/ML/Decoder_maximum_likelihood_std.cpp: Decoder_maximum_likelihood_std, _decode_siho, _decode_siho_cw, _decode_hiho, _decode_hiho_cw","src/Module/Decoder/Generic/ML/Decoder_maximum_likelihood_naive.cpp: Decoder_maximum_likelihood_naive, _decode_siho, _decode_siho_cw, _decode_hiho, _decode_hiho_cw","include/Module/Decoder/Generic/ML/Decoder_maximum_likelihood.hxx: compute_euclidean_dist, compute_hamming_dist"])
p("C76","Maximum likelihood decoding at the limits",
 "The nearest codeword is found for every size the constructor accepts and for every input; the result does not depend on previous frames.",
 "all accepted sizes, all inputs including infinite and large ones",
 "With 64 bits no test could end if the enumeration were complete; the other faults need infinite or very unequal inputs and a previous frame.",
 ["src/Module/Decoder/Generic/ML/Decoder_maximum_likelihood_std.cpp: _decode_siho_cw, _decode_hiho_cw","src/Module/Decoder/Generic/ML/Decoder_maximum_likelihood_naive.cpp: _decode_siho_cw, _decode_hiho_cw"])
p("C77","Chase decoding",
 "Whatever was decoded before, if some codeword differs from the hard decisions only at the max_flips least reliable positions, the Chase decoder gives the one whose changed bits are the least reliable in sum (or the fewest, with the Hamming option), the first one in the order of the tests when several are; with quantized inputs it is the one of greatest correlation with what is received, so that with max_flips = N the decoder is a maximum likelihood decoder. Hard decisions that are a codeword are the result. The message is made of the information bits of this codeword, and is refused if the encoder is not systematic.",
 "all encoders, all sizes, all numbers of flips, all inputs that are numbers, all sorts that satisfy the standard, all histories of calls",
 "There are 2^max_flips tests for each of infinitely many inputs, the order of equal reliabilities is that of the library, and members survive between calls.",
 ["src/Module/Decoder/Generic/Chase/Decoder_chase_std.cpp: Decoder_chase_std, _decode_siho, _decode_siho_cw, _decode_siho_cw_euclidean, _decode_siho_cw_hamming"])
p("C78","Chase decoding without a codeword in reach",
 "When no codeword differs from the hard decisions only at tested positions, the result depends only on the frame (the hard decisions are returned).",
 "all frames without a codeword in reach, all histories of calls",
 "The fault needs a frame that cannot be repaired after one that was.",
 ["src/Module/Decoder/Generic/Chase/Decoder_chase_std.cpp: _decode_siho_cw_euclidean, _decode_siho_cw_hamming"])
p("C79","Decoding of erasures by peeling",
 "For a codeword with erasures, no recovered bit is wrong and no received bit is modified; when the CWD output is 1 every bit of a check is known and the codeword is the only one that agrees with what is received; the bits that are recovered are recoverable by peeling and contain all those that n_ite rounds recover; with as many iterations as erasures they are exactly those outside of the greatest stopping set of the erasures, and with one more CWD is 1 exactly when all the bits of the checks are recoverable. The result depends neither on the previous frames nor on the early stop.",
 "all parity check matrices, all words of bits and unknown symbols of 8, 16 or 32 bits, all numbers of iterations, all settings of the early stop, all histories of calls",
 "The order in which the checks release the bits depends on the matrix and on the erasures, of which there are exponentially many, and members survive between calls.",
 ["src/Module/Decoder/LDPC/BP/Peeling/Decoder_LDPC_BP_peeling.cpp: _decode, _decode_hiho, _decode_hiho_cw, _decode_siho, _decode_siho_cw, _store, _store_cw", "src/Module/Decoder/LDPC/BP/Decoder_LDPC_BP.cpp: Decoder_LDPC_BP", "include/Tools/Noise/noise_utils.hxx: unknown_symbol_val, is_unknown_symbol"])
p("C80","Success of the decoding of erasures",
 "The CWD output of the peeling decoder is 1 exactly when the output is a codeword, for all words, types and sizes, and every accepted position of information bits can be read.",
 "all words of bits and unknown symbols, all types, sizes and register widths, all accepted positions",
 "The faults need words with errors, recovery in the last iteration, sizes that are not multiples of the register, or 64-bit bits.",
 ["src/Module/Decoder/LDPC/BP/Peeling/Decoder_LDPC_BP_peeling.cpp: _decode, _store", "src/Tools/Perf/common/hard_decide.cpp: hard_decide_unk", "include/Tools/Math/utils.hxx: sat_val"])
p("C81","Shape of the constellations",
 "For n bits per symbol a PAM has 2^n real points, its amplitudes are all the odd integers between -2^n and 2^n, each once, two neighbouring amplitudes have labels that differ in one bit, their mean is null and they are divided by the square root of the mean of their squares; after rounding the points keep their order and are distinct; a QAM of 2n bits is such a PAM on each axis, for the low and the high half of the bits, and its points are distinct; a PSK places the points in the same order on a circle, the first and the last being neighbours too; a file of points gives these points in order, normalized by their mean energy, and is refused when their number is not a power of two.",
 "all numbers of bits per symbol (PAM up to 15, QAM up to 22, PSK up to 23), float and double, all square roots, sines and cosines, all files of comments and points",
 "The labelling is a property of all the pairs of neighbours of each of the sizes, and distinctness after rounding a property of all pairs.",
 ["include/Tools/Constellation/Constellation.hxx: Constellation, build, has_complex_symbols", "include/Tools/Constellation/PAM/Constellation_PAM.hxx: Constellation_PAM, bits_to_symbol", "include/Tools/Constellation/QAM/Constellation_QAM.hxx: Constellation_QAM, bits_to_symbol", "include/Tools/Constellation/PSK/Constellation_PSK.hxx: Constellation_PSK, bits_to_symbol", "include/Tools/Constellation/User/Constellation_user.hxx: Constellation_user, read_constellation"])
p("C82","Constellations of any size",
 "Every constellation that can be built has distinct finite points, is declared complex exactly when one of its points is not real, and bad sizes and files are refused.",
 "all numbers of bits per symbol, all files",
 "The faults need sizes that are never tested: 16 bits and more, an odd number of bits, none, blank lines.",
 ["include/Tools/Constellation/PAM/Constellation_PAM.hxx: Constellation_PAM", "include/Tools/Constellation/QAM/Constellation_QAM.hxx: bits_to_symbol", "include/Tools/Constellation/User/Constellation_user.hxx: read_constellation", "include/Tools/Constellation/Constellation.hxx: Constellation, is_complex"])
p("C83","Modulation and demodulation on a constellation",
 "A frame of bits is mapped group by group to the points of the constellation, the last group being completed by zeros, and the number of values is that of the points. Whatever was demodulated before, the LLR of a bit is the greatest of the metrics of the labels where it is 0 minus the greatest of those where it is 1, a metric being minus the squared distance to the point, times the gain, divided by twice the variance of the noise; its sign never contradicts the nearest point, and a frame that is modulated and demodulated without noise is recovered, on any PAM of 1 to 15 bits for one. With prior information the LLR of a bit does not depend on the prior of this bit, and with null priors it is the one without priors.",
 "all constellations of 1 to 30 bits per symbol, all frame lengths (below 2^24 for the number of symbols), all received values and gains, all histories of calls other than filter, float and double",
 "The LLR is a maximum over all labels of rounded values; recovery is a statement on all frames, all constellations, all noise levels and all previous calls.",
 ["include/Module/Modem/Generic/Modem_generic.hxx: Modem_generic, _modulate, _filter, _demodulate, _demodulate_complex, _demodulate_real, _demodulate_wg, _tdemodulate, _tdemodulate_wg", "include/Module/Modem/Modem.hxx: Modem, modulate, filter, demodulate, demodulate_wg, tdemodulate"])
p("C84","Modulation and demodulation without restriction",
 "The LLRs are scaled by the channel parameter of the call in all histories, for all parameters and all frame lengths, only the points that can be sent are counted, and a bit known by its prior information leaves the LLRs of the other bits numbers.",
 "all histories with filter, all parameters, all lengths, infinite prior information",
 "The faults need a history (filter, then demodulate with the same parameter), a frame of more than 2^24 bits, an incomplete last symbol or an infinite prior.",
 ["include/Module/Modem/Modem.hxx: filter, demodulate, last_channel_param", "include/Module/Modem/Generic/Modem_generic.hxx: Modem_generic, _demodulate, _tdemodulate"])
p("C85","BPSK, on-off keying and the binary channels",
 "The BPSK sends 1 and -1, an OOK 0 and 1. Whatever was demodulated before, the value the BPSK demodulates is the log-likelihood ratio of the bit on the Gaussian channel, with or without gains, up to the rounding; the fast BPSK gives the same values as the other one; a modulated frame is recovered by all these modems. Through the erasure channel the LLRs of the bits received are 1 or -1 and those of the erased bits are small and of alternate signs; through the symmetric channel they all have the same magnitude and their signs give the bits, inverted where the channel made an error.",
 "all frame lengths and register widths, all received values and gains, all standard deviations from 2^-10 to 2^10 and error probabilities below 1/2, all draws of the channel, all histories of calls other than filter, float and double",
 "The LLRs are rounded values of infinitely many inputs and parameters, and the factor computed from the parameter survives between calls.",
 ["src/Module/Modem/BPSK/Modem_BPSK.cpp: _modulate, _filter, _demodulate, _demodulate_wg", "src/Module/Modem/BPSK/Modem_BPSK_fast.cpp: _modulate, _filter, _demodulate", "src/Module/Modem/OOK/Modem_OOK.cpp: _modulate, _filter", "src/Module/Modem/OOK/Modem_OOK_AWGN.cpp: _demodulate, _demodulate_wg", "src/Module/Modem/OOK/Modem_OOK_BEC.cpp: _demodulate", "src/Module/Modem/OOK/Modem_OOK_BSC.cpp: _demodulate", "src/Module/Channel/Binary_erasure/Channel_binary_erasure.cpp: _add_noise", "src/Module/Channel/Binary_symmetric/Channel_binary_symmetric.cpp: _add_noise"])
p("C86","BPSK and on-off keying without restriction",
 "The LLRs are those of the channel parameter of the call in all histories, are the log-likelihood ratios with the OOK too, with or without gains, and are numbers for all parameters; a modem that can be built can modulate.",
 "all histories with filter, all parameters, gains and types",
 "The faults need a history (filter, then demodulate with the same parameter), extreme parameters, or another noise level than that at which a factor is right by accident.",
 ["src/Module/Modem/BPSK/Modem_BPSK.cpp: _modulate, _filter, _demodulate, _demodulate_wg", "src/Module/Modem/BPSK/Modem_BPSK_fast.cpp: _modulate, _filter, _demodulate", "src/Module/Modem/OOK/Modem_OOK.cpp: _modulate, _filter", "src/Module/Modem/OOK/Modem_OOK_AWGN.cpp: _demodulate, _demodulate_wg", "src/Module/Modem/OOK/Modem_OOK_BEC.cpp: _demodulate", "src/Module/Modem/OOK/Modem_OOK_BSC.cpp: _demodulate"])
p("C87","Polar successive cancellation list decoding, with or without CRC",
 "Whatever was decoded before, a list decoder gives the outputs of a best path (with a CRC, of a best one among those that pass it) of the list that is obtained by extending the paths bit after bit and by keeping the best ones; the paths of the list are distinct codewords, as many as the list size allows. With a list of all messages and no CRC it is a maximum likelihood decoder; with a list of one path it gives the result of successive cancellation; and for every list size it recovers the message from a received frame whose signs are those of a codeword, if the message passes the CRC.",
 "all codes (frozen bits), lengths from 2, list sizes, CRCs, all inputs, plain and systematic, all histories of calls, int8_t, int16_t, float and double",
 "The number of codes, inputs and histories is unbounded; the trees of the paths are reused between calls and copied lazily when a path is duplicated, so that a copy that misses a node shows only for some orders of the paths.",
 ["include/Module/Decoder/Polar/SCL/Decoder_polar_SCL_naive.hxx: Decoder_polar_SCL_naive, set_frozen_bits, _load, _decode, _decode_siho, _decode_siho_cw, duplicate_path, select_best_path", "include/Module/Decoder/Polar/SCL/Decoder_polar_SCL_naive_sys.hxx: _store", "include/Module/Decoder/Polar/SCL/CRC/Decoder_polar_SCL_naive_CA.hxx: select_best_path", "include/Module/Decoder/Polar/SCL/CRC/Decoder_polar_SCL_naive_CA_sys.hxx: select_best_path, _store", "include/Tools/Code/Polar/decoder_polar_functions.hxx: phi, compute_depth"])
p("C88","Polar list decoding without restriction",
 "Every code that the constructor accepts can be decoded, the codeword given is made of bits, new frozen bits that do not fit are refused, a list without a path that passes the CRC gives the best path, and a frame without noise is decoded whatever its magnitude.",
 "all codes accepted by the constructor, all frozen bits, inputs and types",
 "The faults need a code of one bit, wrong frozen bits in a given order, a CRC that fails on all paths, or sums of magnitudes that overflow the metrics.",
 ["include/Module/Decoder/Polar/SCL/Decoder_polar_SCL_naive.hxx: Decoder_polar_SCL_naive, set_frozen_bits, _load, _decode, _decode_siho, _decode_siho_cw, duplicate_path, select_best_path", "include/Module/Decoder/Polar/SCL/Decoder_polar_SCL_naive_sys.hxx: _store", "include/Module/Decoder/Polar/SCL/CRC/Decoder_polar_SCL_naive_CA.hxx: select_best_path", "include/Module/Decoder/Polar/SCL/CRC/Decoder_polar_SCL_naive_CA_sys.hxx: select_best_path, _store", "include/Tools/Code/Polar/decoder_polar_functions.hxx: phi, compute_depth"])
p("C89","LDPC belief propagation by flooding and by layers",
 "Whatever was decoded before, a belief propagation decoder of a Tanner graph decides on the a posteriori values of message passing on this graph (all the checks then all the variables, or check after check, or variable after variable, with the update rule and the arithmetic it was built with) after the first iteration at which its stopping criterion is met, or after the last one; the information bits, the codeword and the extrinsic values it gives are those of this iteration, and it announces a detected codeword when the criterion stopped it, in which case the decisions satisfy all the checks. When the criterion is off or of depth one its results do not depend on what was decoded before.",
 "all matrices (variables of at most 256 checks for flooding), update rules, arithmetics, numbers of iterations, depths, inputs and histories of calls",
 "The message memories, their transposition and the counters persist between calls; a wrong offset shows only on irregular graphs, and the set of graphs, inputs and histories is unbounded.",
 ["include/Module/Decoder/LDPC/BP/Decoder_LDPC_BP.hxx: Decoder_LDPC_BP, check_syndrome_hard, check_syndrome_soft", "include/Module/Decoder/LDPC/BP/Flooding/Decoder_LDPC_BP_flooding.hxx: Decoder_LDPC_BP_flooding, _decode, _decode_siso, _decode_siho, _decode_siho_cw, _initialize_var_to_chk, _compute_post", "include/Module/Decoder/LDPC/BP/Flooding/Decoder_LDPC_BP_flooding.hxx: _decode_single_ite", "include/Module/Decoder/LDPC/BP/Horizontal_layered/Decoder_LDPC_BP_horizontal_layered.hxx", "include/Module/Decoder/LDPC/BP/Vertical_layered/Decoder_LDPC_BP_vertical_layered.hxx"])
p("C90","LDPC update rules, frames without errors and symmetry",
 "The min-sum rules send to each variable the product of the signs of the other messages of the check with their least magnitude (less the offset, times the factor), and the sum-product rules the product of the signs, whatever the transcendental functions of the platform. With the min-sum rules on floating-point numbers, LLRs that have the signs of a codeword are decoded to this codeword (flooding: whatever the number of iterations; layers: when it stops at its first iteration), and flipping the signs of the LLRs according to a codeword flips the decisions accordingly.",
 "all lists of messages, all matrices, all codewords, all LLRs, all histories of calls, float, double and signed integers for the rules",
 "The minima are kept incrementally (least and second least) and ties, null values, infinities and single messages are corner cases of any number of messages; the number of codewords is exponential.",
 ["include/Tools/Code/LDPC/Update_rule/MS/Update_rule_MS.hxx", "include/Tools/Code/LDPC/Update_rule/OMS/Update_rule_OMS.hxx", "include/Tools/Code/LDPC/Update_rule/NMS/Update_rule_NMS.hxx", "include/Tools/Code/LDPC/Update_rule/AMS/Update_rule_AMS.hxx", "include/Tools/Code/LDPC/Update_rule/SPA/Update_rule_SPA.hxx", "include/Tools/Code/LDPC/Update_rule/LSPA/Update_rule_LSPA.hxx", "include/Module/Decoder/LDPC/BP/Decoder_LDPC_BP.hxx: Decoder_LDPC_BP, check_syndrome_hard, check_syndrome_soft", "include/Module/Decoder/LDPC/BP/Flooding/Decoder_LDPC_BP_flooding.hxx: Decoder_LDPC_BP_flooding, _decode, _decode_siso, _decode_siho, _decode_siho_cw, _initialize_var_to_chk, _compute_post", "include/Module/Decoder/LDPC/BP/Flooding/Decoder_LDPC_BP_flooding.hxx: _decode_single_ite", "include/Module/Decoder/LDPC/BP/Horizontal_layered/Decoder_LDPC_BP_horizontal_layered.hxx", "include/Module/Decoder/LDPC/BP/Vertical_layered/Decoder_LDPC_BP_vertical_layered.hxx"])
p("C91","LDPC belief propagation without restriction",
 "Every matrix that the constructor accepts is decoded by message passing on its graph, a frame without errors is decoded whatever the magnitudes, the result does not depend on the frames decoded before, a codeword is announced if and only if the decisions are one, and a null LLR carries no information.",
 "all matrices accepted by the constructor, all inputs, types, rules and histories",
 "The faults need a variable of more than 256 checks, integer sums that leave the type, a check of one variable, a stopping depth and two frames, a criterion met at the last iteration, or an LLR that is exactly null.",
 ["include/Module/Decoder/LDPC/BP/Decoder_LDPC_BP.hxx: Decoder_LDPC_BP, check_syndrome_hard, check_syndrome_soft", "include/Module/Decoder/LDPC/BP/Flooding/Decoder_LDPC_BP_flooding.hxx: Decoder_LDPC_BP_flooding, _decode, _decode_siso, _decode_siho, _decode_siho_cw, _initialize_var_to_chk, _compute_post", "include/Module/Decoder/LDPC/BP/Flooding/Decoder_LDPC_BP_flooding.hxx: _decode_single_ite", "include/Module/Decoder/LDPC/BP/Horizontal_layered/Decoder_LDPC_BP_horizontal_layered.hxx", "include/Module/Decoder/LDPC/BP/Vertical_layered/Decoder_LDPC_BP_vertical_layered.hxx", "include/Tools/Code/LDPC/Update_rule/MS/Update_rule_MS.hxx", "include/Tools/Code/LDPC/Update_rule/OMS/Update_rule_OMS.hxx", "include/Tools/Code/LDPC/Update_rule/NMS/Update_rule_NMS.hxx", "include/Tools/Code/LDPC/Update_rule/AMS/Update_rule_AMS.hxx", "include/Tools/Code/LDPC/Update_rule/SPA/Update_rule_SPA.hxx", "include/Tools/Code/LDPC/Update_rule/LSPA/Update_rule_LSPA.hxx"])
p("C92","Max-log BCJR decoding of convolutional codes",
 "For a terminated recursive systematic convolutional code of odd feedback polynomial, whatever was decoded before, the generic BCJR decoder gives for each bit its max-log posterior LLR (half the difference of the correlations of the best codewords with this bit at 0 and at 1) minus the LLR received for it; its hard decisions are the signs of the posterior LLRs, hence the message of the most likely codeword when there is only one, and LLRs that have the signs of a codeword are decoded to its message.",
 "all generator polynomials of any memory, all message lengths, both layouts, all LLRs within the stated magnitudes (short; float and double on a common grid), all histories of calls",
 "The number of codewords is exponential in the length; normalizations every eight steps and persistent metrics only show on long frames and histories.",
 ["include/Module/Decoder/RSC/BCJR/Decoder_RSC_BCJR.hxx: Decoder_RSC_BCJR, _load, _decode_siho, _store", "include/Module/Decoder/RSC/BCJR/Seq_generic/Decoder_RSC_BCJR_seq_generic.hxx: Decoder_RSC_BCJR_seq_generic, RSC_BCJR_seq_generic_init, RSC_BCJR_seq_generic_div_or_not, RSC_BCJR_seq_generic_post, RSC_BCJR_seq_generic_normalize", "include/Module/Decoder/RSC/BCJR/Seq_generic/Decoder_RSC_BCJR_seq_generic_std.hxx: compute_gamma, compute_alpha, compute_beta, compute_beta_ext, compute_ext_sys, compute_ext_par, _decode_siso_alt, _decode_siso", "src/Module/Encoder/RSC/Encoder_RSC_generic_sys.cpp"])
p("C93","BCJR decoding without restriction",
 "The hard decision of the BCJR decoder is the message of the most likely codeword given all the received LLRs, for every code that the encoder accepts and every LLR of the type.",
 "all polynomials accepted by the encoder, all layouts, all types, all LLRs",
 "The faults need LLRs on the tail that contradict the rest, an even feedback polynomial, LLRs near the limits of the type or of one or two quantization steps.",
 ["include/Module/Decoder/RSC/BCJR/Decoder_RSC_BCJR.hxx: Decoder_RSC_BCJR, _load, _decode_siho, _store", "include/Module/Decoder/RSC/BCJR/Seq_generic/Decoder_RSC_BCJR_seq_generic.hxx: Decoder_RSC_BCJR_seq_generic, RSC_BCJR_seq_generic_init, RSC_BCJR_seq_generic_div_or_not, RSC_BCJR_seq_generic_post, RSC_BCJR_seq_generic_normalize", "include/Module/Decoder/RSC/BCJR/Seq_generic/Decoder_RSC_BCJR_seq_generic_std.hxx: compute_gamma, compute_alpha, compute_beta, compute_beta_ext, compute_ext_sys, compute_ext_par, _decode_siso_alt, _decode_siso", "src/Module/Encoder/RSC/Encoder_RSC_generic_sys.cpp"])
p("C94","Turbo encoding",
 "The turbo encoders output a turbo codeword carrying the message: the codeword of the message by the first convolutional code and the parities of the codeword of the interleaved message by the second one, in the buffered layout or bit by bit; a message has one codeword only; the code is linear; is_codeword accepts the words of this code for the permutation of frame 0 and no other, whatever was encoded or checked before.",
 "all generator polynomials, message lengths, interleavers and histories of the interleaver and of the encoder, all messages and words, all frames",
 "Words to reject and messages to encode are exponentially many, and the encoder keeps work buffers and an interleaver shared between calls.",
 ["src/Module/Encoder/Turbo/Encoder_turbo.cpp: Encoder_turbo, _encode, is_codeword", "src/Module/Encoder/Turbo/Encoder_turbo_legacy.cpp: Encoder_turbo_legacy, _encode, is_codeword"])
p("C95","Turbo decoding",
 "Whatever was decoded before, the turbo decoder decides what iterative max-log decoding decides: each half iteration computes the max-log posterior LLRs of one code from the channel LLRs and the extrinsic LLRs of the other one, scaled by the scaling factor, and the decoding stops early on the decisions that pass the CRC; LLRs with the signs of a turbo codeword, the parities and tails being possibly erased, are decoded to its message; with CRC or flip-and-check, in any arithmetic, the decisions pass the check or are those of the decoder without it.",
 "all generator polynomials, message lengths, interleavers, numbers of iterations, lists of post-processings, both layouts, all LLRs within the stated magnitudes (short; float and double on a common grid), all histories of calls",
 "The inputs are exponentially many, extrinsic information goes through two decoders, an interleaver and persistent buffers, and early termination skips half iterations.",
 ["src/Module/Decoder/Turbo/Decoder_turbo.cpp: Decoder_turbo, _load, buffered_load, standard_load, _store", "src/Module/Decoder/Turbo/Decoder_turbo_std.cpp: _decode_siho", "src/Tools/Code/Turbo/Post_processing_SISO/Scaling_factor/Scaling_factor_seq.cpp: siso_n, siso_i", "src/Tools/Code/Turbo/Post_processing_SISO/CRC/CRC_checker.cpp: siso_n", "src/Tools/Code/Turbo/Post_processing_SISO/Flip_and_check/Flip_and_check.cpp: siso_n, apply_flip_and_check", "src/Tools/Code/Turbo/Post_processing_SISO/Self_corrected/Self_corrected.cpp: siso_n, siso_i"])
p("C96","Turbo encoding and decoding without restriction",
 "The turbo encoders accept only consistent sub-encoders and recognize their codewords; the post-processings scale the extrinsic LLRs by their factor on every type, and decode each frame independently of the frames before; LLRs with the signs of a codeword are decoded to its message whatever their magnitude.",
 "all sub-encoders, interleavers, post-processings, types, LLRs and histories",
 "The faults need particular combinations: integer LLRs with given factors, several frames with one permutation each, messages of less than 20 bits, or a history of frames.",
 ["src/Module/Encoder/Turbo/Encoder_turbo.cpp: Encoder_turbo, _encode, is_codeword", "src/Module/Encoder/Turbo/Encoder_turbo_legacy.cpp: Encoder_turbo_legacy, _encode, is_codeword", "src/Module/Decoder/Turbo/Decoder_turbo.cpp: Decoder_turbo, _load, buffered_load, standard_load, _store", "src/Module/Decoder/Turbo/Decoder_turbo_std.cpp: _decode_siho", "src/Tools/Code/Turbo/Post_processing_SISO/Scaling_factor/Scaling_factor_seq.cpp: siso_n, siso_i", "src/Tools/Code/Turbo/Post_processing_SISO/CRC/CRC_checker.cpp: siso_n", "src/Tools/Code/Turbo/Post_processing_SISO/Flip_and_check/Flip_and_check.cpp: siso_n, apply_flip_and_check", "src/Tools/Code/Turbo/Post_processing_SISO/Self_corrected/Self_corrected.cpp: siso_n, siso_i"])
p("C97","Fast successive cancellation decoding of polar codes",
 "The fast systematic decoder, which prunes the decoding tree into patterns (rate 0, rate 1, repetition, single parity check), gives the same bits as successive cancellation, thus as the naive decoder, when sums are exact and no information bit is decided on a null value; inputs with the signs of a codeword give this codeword and its message; for integer inputs under the maximum of the type, the decoded word is always a codeword and depends only on the frozen bits, the patterns and the input; the patterns cover the frozen bits exactly; whatever was decoded before.",
 "all sizes from 64, frozen bits, lists of patterns, all inputs within the stated bounds (signed char, short, float, double), all histories of calls and changes of frozen bits",
 "Frozen bits, patterns and inputs are exponentially many, and the equality of the pruned and of the full recursion depends on the maximum likelihood decoding of each pattern.",
 ["include/Module/Decoder/Polar/SC/Decoder_polar_SC_fast_sys.hxx: Decoder_polar_SC_fast_sys, set_frozen_bits, _load, _decode, _decode_siho, _decode_siho_cw, recursive_decode", "src/Tools/Code/Polar/Pattern_polar_parser.cpp: Pattern_polar_parser, set_frozen_bits, recursive_allocate_nodes_patterns", "include/Tools/Code/Polar/Patterns/Pattern_polar_i.hxx: match", "include/Tools/Code/Polar/API/internal_functions/functions_polar_seq.hxx: f_seq, g_seq, g0_seq, gr_seq, h_seq, rep_seq, spc_seq, xo_seq, xo0_seq", "include/Tools/Code/Polar/fb_extract.hxx: fb_extract"])
p("C98","Fast successive cancellation decoding without restriction",
 "The fast systematic decoder accepts exactly the sizes it decodes, validates new frozen bits, never accesses memory out of its arrays, writes the same bits as the naive decoder, and decodes inputs with the signs of a codeword to this codeword whatever their magnitude.",
 "all sizes, frozen bits, types and inputs",
 "The faults need saturated inputs, inputs whose sums overflow, null soft values, sizes under 64, or frozen bits of another size or number.",
 ["include/Module/Decoder/Polar/SC/Decoder_polar_SC_fast_sys.hxx: Decoder_polar_SC_fast_sys, set_frozen_bits, _load, _decode, _decode_siho, _decode_siho_cw, recursive_decode", "src/Tools/Code/Polar/Pattern_polar_parser.cpp: Pattern_polar_parser, set_frozen_bits, recursive_allocate_nodes_patterns", "include/Tools/Code/Polar/Patterns/Pattern_polar_i.hxx: match", "include/Tools/Code/Polar/API/internal_functions/functions_polar_seq.hxx: f_seq, g_seq, g0_seq, gr_seq, h_seq, rep_seq, spc_seq, xo_seq, xo0_seq", "include/Tools/Code/Polar/fb_extract.hxx: fb_extract"])
p("C99","Double-binary circular convolutional encoding",
 "The encoders of the standards DVB-RCS1 and DVB-RCS2 encode any message, when the number of couples is not a multiple of the period of the register, as the only codeword of the standard's register equations that starts and ends in the same state and has the couples of the message at the positions get_info_bits_pos gives; they never throw the exception of a wrong circulation state; is_codeword accepts exactly the codewords; codewords are closed under exclusive or; get_trellis gives the transitions, their inverse and the signs of the parities; and the constructor accepts exactly the sizes and names it documents.",
 "all even sizes whose number of couples is not a multiple of 7 (first standard) or 15 (second one), all messages, both layouts, all words with binary couples",
 "That the tables of circulation states close every path is a statement on all messages and lengths; tests sample a few of them.",
 ["src/Module/Encoder/RSC_DB/Encoder_RSC_DB.cpp: Encoder_RSC_DB, calc_state_trans, __pre_encode, __encode_from_state, _encode, is_codeword, get_trellis"])
p("C100","Double-binary circular convolutional encoding for every accepted size",
 "Encoding and is_codeword succeed for every size that the constructor accepts.",
 "all sizes",
 "The fault needs the number of couples to be a multiple of 7 or 15.",
 ["src/Module/Encoder/RSC_DB/Encoder_RSC_DB.cpp: Encoder_RSC_DB, calc_state_trans, __pre_encode, __encode_from_state, _encode, is_codeword, get_trellis"])
p("C101","Double-binary turbo encoding",
 "The double-binary turbo encoder gives the only word made of the message and of the parities of the two circular codewords, of the message and of its couples exchanged and interleaved; is_codeword accepts exactly these words; they are closed under exclusive or; whatever was encoded or checked before and whatever operations were applied to the interleaver.",
 "all sizes and standards of the two encoders as in C99, interleavers and their histories, histories of calls, frames, messages, words with a binary systematic part",
 "Messages, permutations and histories are unbounded.",
 ["src/Module/Encoder/Turbo_DB/Encoder_turbo_DB.cpp: Encoder_turbo_DB, _encode, is_codeword", "src/Module/Encoder/RSC_DB/Encoder_RSC_DB.cpp: Encoder_RSC_DB, calc_state_trans, __pre_encode, __encode_from_state, _encode, is_codeword, get_trellis"])
p("C102","Validation in double-binary turbo encoding",
 "The double-binary turbo encoder refuses component encoders of another size than its own, and uses the permutation of each frame when the interleaver has one per frame.",
 "all sizes of the components, all frames",
 "Tests build the components from the same parameters and use one frame.",
 ["src/Module/Encoder/Turbo_DB/Encoder_turbo_DB.cpp: Encoder_turbo_DB, _encode, is_codeword", "src/Module/Encoder/RSC_DB/Encoder_RSC_DB.cpp: Encoder_RSC_DB, calc_state_trans, __pre_encode, __encode_from_state, _encode, is_codeword, get_trellis"])
p("C103","Product encoding",
 "The turbo product encoder, with BCH encoders for the rows and the columns and a row-column interleaver read from the top, encodes any message as the only matrix whose rows all belong to the (possibly extended) code of the rows, whose columns all belong to that of the columns, and whose last K_c rows and K_r columns before the parity extension hold the message; every such matrix is the encoding of a message; encoding is linear; and nothing depends on what was encoded before or on operations applied to the interleaver. The constructor accepts exactly the sizes and numbers of frames that fit.",
 "all BCH codes (shortened or not) for rows and columns, with or without the parity extension, histories of calls, frames, messages",
 "That the rows of parity bits computed column by column are codewords too follows from linearity, for all codes and messages; tests sample a few words of one code.",
 ["src/Module/Encoder/Turbo_product/Encoder_turbo_product.cpp: Encoder_turbo_product, _encode", "src/Tools/Perf/compute_parity.h: compute_parity", "include/Module/Encoder/Encoder.hxx: Encoder, encode, get_info_bits_pos"])
p("C104","Validation in product encoding",
 "The turbo product encoder loses no information for any interleaver that it accepts, and get_info_bits_pos gives the positions of the message in the word.",
 "all accepted interleavers, all codes",
 "The default interleaver hides the first fault, and no test reads the announced positions.",
 ["src/Module/Encoder/Turbo_product/Encoder_turbo_product.cpp: Encoder_turbo_product, _encode", "src/Tools/Perf/compute_parity.h: compute_parity", "include/Module/Encoder/Encoder.hxx: Encoder, encode, get_info_bits_pos"])
p("C105","Multi-kernel polar encoding",
 "A polar code built from any square kernels and any stages that the constructor accepts is encoded, after any history of calls, as the message on the non-frozen positions times the Kronecker product modulo 2 of the kernels of the stages; encoding is linear; different messages have different codewords when the determinants of the kernels are odd; can_be_systematic answers true exactly when the stages are equal or palindromic and the kernels are their own inverses; the systematic encoder always gives a codeword, and carries every message on the information positions exactly when the information set does not leak through the frozen positions.",
 "all kernels, stages, frozen sets, histories, messages",
 "The kernels, their number, the order of the stages and the frozen set are parameters: tests sample a few of them.",
 ["src/Tools/Code/Polar/Polar_code.cpp: Polar_code, verif, verif_MK, can_be_systematic, is_mono_kernel", "src/Module/Encoder/Polar_MK/Encoder_polar_MK.cpp: Encoder_polar_MK, _encode, light_encode, convert, set_frozen_bits", "src/Module/Encoder/Polar_MK/Encoder_polar_MK_sys.cpp: Encoder_polar_MK_sys, _encode"])
p("C106","Validation of multi-kernel polar codes",
 "A polar code or encoder that the library accepts maps different messages to different codewords, has the length that was asked for and, if it is systematic, carries the message; invalid stages are rejected with an exception.",
 "all kernels, stages, lengths and frozen sets",
 "The faults need kernels, lengths or frozen sets that no shipped configuration uses.",
 ["src/Tools/Code/Polar/Polar_code.cpp: Polar_code, verif, verif_MK, can_be_systematic, is_mono_kernel", "src/Module/Encoder/Polar_MK/Encoder_polar_MK.cpp: Encoder_polar_MK, _encode, light_encode, convert, set_frozen_bits", "src/Module/Encoder/Polar_MK/Encoder_polar_MK_sys.cpp: Encoder_polar_MK_sys, _encode"])
p("C107","Binary files of bits",
 "A binary sink of frame length at least 8 writes, after any history of sends and resets, the frames sent since the last reset one after the other, eight bits per byte, and never fails. A binary source without automatic reset gives, after any history, the successive slices of the bits of its file, then zeros, and is_done() turns true with the first frame beyond the end; with automatic reset it gives the slices of the file repeated forever when frames are whole bytes or a whole number of frames makes the file. Frames sent to a sink and read back by a source are the same bits.",
 "all frame lengths, files, frames and histories of calls",
 "The state carried between calls (bits of an incomplete byte, position, end of file) depends on the whole history and on the lengths modulo 8.",
 ["src/Module/Sink/User/Sink_user_binary.cpp: Sink_user_binary, _send, reset", "src/Module/Source/User/Source_user_binary.cpp: Source_user_binary, _generate, reset, is_done", "include/Tools/Algo/Bit_packer.hxx: pack, unpack"])
p("C108","Binary files of bits: accepted lengths and ends of files",
 "A binary source that the library accepts repeats its file without losing or inserting bits when the automatic reset is on, always returns, and never writes outside the frame; a binary sink writes every bit it was sent, and touches the file only if it is accepted; is_done() is true as soon as the file is exhausted.",
 "all frame lengths, files and histories of calls",
 "The faults need frame lengths that are not multiples of 8, empty files or files of exactly a whole number of frames.",
 ["src/Module/Sink/User/Sink_user_binary.cpp: Sink_user_binary, _send, reset", "src/Module/Source/User/Source_user_binary.cpp: Source_user_binary, _generate, reset, is_done", "include/Tools/Algo/Bit_packer.hxx: pack, unpack"])
p("C109","Extractors and cosets",
 "The extractors give the LLRs, and the hard decisions, at the information positions of the code in their order, reject a list of positions of the wrong length, and add extrinsic values at these positions and nowhere else. After any history of set_frozen_bits with K information positions the polar extractor uses the positions that the last call leaves unfrozen. The RSC extractor splits a frame into the systematic and parity parts where the encoder puts them, so that encoding and then extracting the bits gives back every message. A coset complements (or negates) exactly what its reference designates, is its own inverse, and commutes with hard decisions.",
 "all sizes, positions, frozen sets and their histories, frames, RSC polynomials and references",
 "The claim ties the layout of the encoder to the layout of the extractor for every code, length and message.",
 ["include/Module/Extractor/Extractor.hxx: Extractor, _get_sys_llr, _get_sys_bit, _get_sys_and_par_llr, _add_sys_and_ext_llr", "src/Module/Extractor/Polar/Extractor_polar.cpp: set_frozen_bits", "src/Module/Extractor/RSC/Extractor_RSC.cpp", "src/Module/Coset/Bit/Coset_bit.cpp: _apply", "src/Module/Coset/Real/Coset_real.cpp: _apply"])
p("C110","Extractors and cosets: parity outputs and accepted frozen sets",
 "get_sys_and_par_llr of every extractor gives the LLRs of the parity positions in its second output and writes only inside it; the polar extractor rejects frozen sets that do not leave K information positions; the coset flips the sign of every integer LLR.",
 "all codes, rates, frozen sets and LLRs",
 "The faults depend on the rate of the code, on the number of unfrozen positions and on one extreme LLR.",
 ["include/Module/Extractor/Extractor.hxx: Extractor, _get_sys_llr, _get_sys_bit, _get_sys_and_par_llr, _add_sys_and_ext_llr", "src/Module/Extractor/Polar/Extractor_polar.cpp: set_frozen_bits", "src/Module/Extractor/RSC/Extractor_RSC.cpp", "src/Module/Coset/Bit/Coset_bit.cpp: _apply", "src/Module/Coset/Real/Coset_real.cpp: _apply"])
p("C111","Repeat-accumulate codes: linearity, symmetry and histories of frames",
 "After any history of frames, the encoder outputs the message repeated N/K times, interleaved by the table of its frame and accumulated modulo 2; different messages have different codewords and the code is linear. The decoder is symmetric: changing the signs of the LLRs where a codeword has ones flips exactly the decisions where its message has ones (undecided bits stay 0), and LLRs that agree with a codeword, whatever their magnitudes, are decoded into its message for every number of iterations.",
 "all K and N that are accepted, interleavers after any history, frame indexes, messages, LLRs, numbers of iterations and previous frames",
 "The claim is about every interleaver, message and number of iterations, and the arrays of the decoder are kept between frames.",
 ["src/Module/Encoder/RA/Encoder_RA.cpp: Encoder_RA, _encode", "src/Module/Decoder/RA/Decoder_RA.cpp: Decoder_RA, _decode_siho, check_node, sign"])
p("C112","Repeat-accumulate codes: short frames, fixed-point LLRs and information positions",
 "Every accepted decoder decodes every frame, also of one bit and also with the fixed-point LLR types it is compiled for, and the positions given by get_info_bits_pos() hold the message in the codeword.",
 "all accepted sizes, LLR types and messages",
 "The faults need an extreme size or LLRs large enough to overflow.",
 ["src/Module/Encoder/RA/Encoder_RA.cpp: Encoder_RA, _encode", "src/Module/Decoder/RA/Decoder_RA.cpp: Decoder_RA, _decode_siho, check_node, sign"])
p("C113","User files of messages, codewords and noise, and the fast random source",
 "A text file that announces n frames of the size of the module and holds them is accepted, and the module then uses its frames in order and cyclically: the user source outputs them as bits and the user encoder as codewords, from the start index, and the user channels replace, add, erase or flip with them. Information positions given in the file of an encoder are published, and always K different ones. The fast random source outputs bits of its generators, using each bit of each draw at most once, and every message can be drawn.",
 "all files, frame sizes, start indexes, histories of calls, register sizes and generators",
 "Files, sizes and histories are unbounded, and vector and scalar loops share the frames in proportions that depend on the sizes.",
 ["src/Module/Source/User/Source_user.cpp: Source_user, _generate", "src/Module/Encoder/User/Encoder_user.cpp: Encoder_user, read_info_bits_pos, _encode", "src/Module/Channel/User/Channel_user.cpp: read_as_text, set_noise, _add_noise", "src/Module/Channel/User/Channel_user_add.cpp: _add_noise", "src/Module/Channel/User/Channel_user_be.cpp: _add_noise", "src/Module/Channel/User/Channel_user_bs.cpp: _add_noise", "src/Module/Source/Random/Source_random_fast.cpp: _generate"])
p("C114","User files: short files, start indexes, added users, flips and 64-bit random sources",
 "Files with fewer values than announced or with garbage and negative start indexes are rejected, positions of information bits are positions of the codeword, noise is added to the sum of the users, the binary symmetric channel flips every bit whose noise is not zero, and the fast random source can output every message for every type of bits.",
 "all files, start indexes, sizes and types",
 "The faults depend on the content of the file, on the register size and on the type.",
 ["src/Module/Source/User/Source_user.cpp: Source_user, _generate", "src/Module/Encoder/User/Encoder_user.cpp: Encoder_user, read_info_bits_pos, _encode", "src/Module/Channel/User/Channel_user.cpp: read_as_text, set_noise, _add_noise", "src/Module/Channel/User/Channel_user_add.cpp: _add_noise", "src/Module/Channel/User/Channel_user_be.cpp: _add_noise", "src/Module/Channel/User/Channel_user_bs.cpp: _add_noise", "src/Module/Source/Random/Source_random_fast.cpp: _generate"])
p("C115","Bit-flipping LDPC decoders (weighted and probabilistic)",
 "After any history of frames, the weighted decoder flips in each iteration the variable of largest energy, where the energy adds the weights of the failed checks, subtracts those of the satisfied ones and the weighted reliability, and the probabilistic decoder flips variables according to draws of the distributions of their energies; outputs and announcements are those of this description. Announced words are codewords (with at least one iteration; for the probabilistic one with a stop criterion of depth one), received codewords are returned unchanged and announced, adding a codeword to the input adds it to the output, and the weighted decoder changes at most one bit per iteration.",
 "all parity-check matrices (checks of at most 255 variables for the weighted decoder), frames, iteration counts, arithmetics, factors, random sources and histories",
 "The messages of one frame stay in the buffers used by the next, and the result depends on all draws and on matrices of any shape.",
 ["src/Module/Decoder/LDPC/BF/Decoder_LDPC_bit_flipping.cpp", "src/Module/Decoder/LDPC/BF/OMWBF/Decoder_LDPC_bit_flipping_OMWBF.cpp: Decoder_LDPC_bit_flipping_OMWBF", "src/Module/Decoder/LDPC/BF/Decoder_LDPC_bit_flipping_hard.cpp: Decoder_LDPC_bit_flipping_hard", "src/Module/Decoder/LDPC/BF/PPBF/Decoder_LDPC_probabilistic_parallel_bit_flipping.cpp: Decoder_LDPC_probabilistic_parallel_bit_flipping"])
p("C116","Bit-flipping LDPC decoders: what is announced after the last iteration, wide checks, syndrome depth",
 "The bit-flipping decoders announce a codeword exactly when their output is one, whatever the number of iterations, the degrees of the checks and the stop criterion, and reject values that are not bits.",
 "all matrices, iteration counts, stop criteria and inputs",
 "The faults need a codeword reached by the last flip, a check of 256 variables or a particular draw.",
 ["src/Module/Decoder/LDPC/BF/Decoder_LDPC_bit_flipping.cpp", "src/Module/Decoder/LDPC/BF/OMWBF/Decoder_LDPC_bit_flipping_OMWBF.cpp: Decoder_LDPC_bit_flipping_OMWBF", "src/Module/Decoder/LDPC/BF/Decoder_LDPC_bit_flipping_hard.cpp: Decoder_LDPC_bit_flipping_hard", "src/Module/Decoder/LDPC/BF/PPBF/Decoder_LDPC_probabilistic_parallel_bit_flipping.cpp: Decoder_LDPC_probabilistic_parallel_bit_flipping"])
p("C117","Gallager A, B and E decoders of LDPC codes",
 "After any history of hard or soft frames, the Gallager A, B and E decoders output the votes of the message-passing algorithm on the Tanner graph after the iteration at which the stop criterion fires or the last one, soft frames being decoded as their hard decisions. The constructor accepts exactly the valid parameters. With the criterion and at least two iterations, announced words are codewords; received codewords are returned unchanged; adding a codeword to the input adds it to the output and does not change what is announced; without a criterion or with a depth of one the result does not depend on previous frames; the messages of A and E are extrinsic.",
 "all Tanner graphs whose variables have at most 256 checks, frames, iteration counts, stop criteria, vector widths and histories",
 "Messages are stored in two layouts linked by a transposition table, and the buffers of a frame are reused by the next: a wrong link appears only on some graphs.",
 ["src/Module/Decoder/LDPC/BP/Flooding/Gallager/Decoder_LDPC_BP_flooding_Gallager_A.cpp: Decoder_LDPC_BP_flooding_Gallager_A", "src/Module/Decoder/LDPC/BP/Flooding/Gallager/Decoder_LDPC_BP_flooding_Gallager_B.cpp: Decoder_LDPC_BP_flooding_Gallager_B", "src/Module/Decoder/LDPC/BP/Flooding/Gallager/Decoder_LDPC_BP_flooding_Gallager_E.cpp: Decoder_LDPC_BP_flooding_Gallager_E", "src/Module/Decoder/LDPC/BP/Decoder_LDPC_BP.cpp: Decoder_LDPC_BP"])
p("C118","Gallager decoders: 64-bit values, announcements, memory between frames, extrinsic messages",
 "The Gallager decoders decode on every type of values, announce a codeword exactly when their output is one, treat each frame independently of the previous ones, and send extrinsic messages.",
 "all instantiations, parameters, frames and histories",
 "The faults need the 64-bit build, a codeword reached at the last iteration, a depth larger than one or a particular balance of messages.",
 ["src/Module/Decoder/LDPC/BP/Flooding/Gallager/Decoder_LDPC_BP_flooding_Gallager_A.cpp: Decoder_LDPC_BP_flooding_Gallager_A", "src/Module/Decoder/LDPC/BP/Flooding/Gallager/Decoder_LDPC_BP_flooding_Gallager_B.cpp: Decoder_LDPC_BP_flooding_Gallager_B", "src/Module/Decoder/LDPC/BP/Flooding/Gallager/Decoder_LDPC_BP_flooding_Gallager_E.cpp: Decoder_LDPC_BP_flooding_Gallager_E", "src/Module/Decoder/LDPC/BP/Decoder_LDPC_BP.cpp: Decoder_LDPC_BP"])
p("C119","Parity-check matrices and information positions in AList files",
 "Reading back the file written for a matrix with at least one connection gives the same matrix, with or without zero padding, whatever the degrees and whatever follows in the file. A file of the third format, with at least as many columns as rows, is read as its matrix. Whatever the file, a matrix that is returned is consistent and has a row and a column; positions of information bits written behind a matrix are read back, and positions that are returned are K distinct positions smaller than N. Reading has no undefined behaviour when the second line is at least as long as the first number of the file.",
 "all matrices smaller than 2^31, paddings, files and lists of positions",
 "Three readers are tried one after the other on the same text: a file of one format that another reader misreads appears only for particular degrees.",
 ["src/Tools/Code/LDPC/AList/AList.cpp: AList::read, AList::write, AList::read_info_bits_pos, AList::write_info_bits_pos", "src/Tools/general_utils.cpp: getline, split"])
p("C120","AList files: empty matrices, column lists, third format",
 "Every written matrix can be read back, a file whose row lists and column lists disagree is refused, and files of the third format are read without undefined behaviour.",
 "all matrices and files",
 "The faults need a matrix without connections, a corrupted file or a matrix with more rows than columns.",
 ["src/Tools/Code/LDPC/AList/AList.cpp: AList::read, AList::write, AList::read_info_bits_pos, AList::write_info_bits_pos", "src/Tools/general_utils.cpp: getline, split"])
p("C121","Frozen bits of polar codes",
 "When the evaluation orders the channels, generating the frozen bits gives exactly K information bits, at the K best channels, whatever was in the vector and whatever was generated before; the information bits for K are information bits for every larger K, and the result is accepted by fb_assert. A file of channels that was dumped is read back; the 5G generator keeps the order of the mother sequence. The BEC and Gaussian-approximation generators compute the quality of channel i by applying one of two transforms for each bit of i from the most significant one, no frozen channel is better than an information channel, and for the BEC the mean erasure probability of the channels is that of the symbols.",
 "all lengths, numbers of information bits, orders of the channels, transforms, sorting functions and former contents",
 "The computation is in place with strides that depend on the stage, and the generator keeps the channels of the previous call.",
 ["src/Tools/Code/Polar/Frozenbits_generator/Frozenbits_generator.cpp: Frozenbits_generator::generate, Frozenbits_generator::dump_best_channels", "src/Tools/Code/Polar/Frozenbits_generator/Frozenbits_generator_file.cpp: Frozenbits_generator_file::evaluate, load_channels_file", "src/Tools/Code/Polar/Frozenbits_generator/Frozenbits_generator_5G.cpp: Frozenbits_generator_5G::evaluate", "src/Tools/Code/Polar/Frozenbits_generator/Frozenbits_generator_BEC.cpp: Frozenbits_generator_BEC::evaluate", "src/Tools/Code/Polar/Frozenbits_generator/Frozenbits_generator_GA_Arikan.cpp: Frozenbits_generator_GA_Arikan::evaluate", "src/Tools/Code/Polar/fb_assert.cpp: fb_assert"])
p("C122","Frozen bits: wrong sizes and wrong files",
 "A number of information bits greater than the length or a length that is not a power of two is refused, and a file that does not give each channel once is refused.",
 "all sizes and files",
 "The faults need corrupted or truncated files or unusual sizes.",
 ["src/Tools/Code/Polar/Frozenbits_generator/Frozenbits_generator.cpp: Frozenbits_generator::generate, Frozenbits_generator::dump_best_channels", "src/Tools/Code/Polar/Frozenbits_generator/Frozenbits_generator_file.cpp: Frozenbits_generator_file::evaluate, load_channels_file", "src/Tools/Code/Polar/Frozenbits_generator/Frozenbits_generator_5G.cpp: Frozenbits_generator_5G::evaluate", "src/Tools/Code/Polar/Frozenbits_generator/Frozenbits_generator_BEC.cpp: Frozenbits_generator_BEC::evaluate", "src/Tools/Code/Polar/Frozenbits_generator/Frozenbits_generator_GA_Arikan.cpp: Frozenbits_generator_GA_Arikan::evaluate", "src/Tools/Code/Polar/fb_assert.cpp: fb_assert"])
p("C123","Recording frames and replaying them",
 "Whatever the sequence of recordings and clears, the dump of a recorder writes for each registered area exactly the frames of the calls with enough errors since the last clear, in order, with the right header, and changes no other file; the dump of several recorders contains the frames of each of them. The dumped text files are files of messages and codewords that the user source and the user encoder replay frame by frame, and the dumped binary files are files of noise that the user channel reads with the recorded values, without ever taking them for text files when they hold less than 2^16 frames.",
 "all registrations, sequences of calls, contents of the memory, numbers of recorders and start indexes",
 "A wrong offset or a wrong count appears only for particular frame indexes, and the reader of noise first tries to read binary files as text.",
 ["src/Tools/Display/Dumper/Dumper.cpp: Dumper::register_data, Dumper::add, Dumper::dump, Dumper::clear", "src/Tools/Display/Dumper/Dumper_reduction.cpp: Dumper_reduction::dump, Dumper_reduction::checks", "src/Module/Channel/User/Channel_user.cpp: Channel_user::read_as_binary, Channel_user::read_as_text"])
p("C124","Recording frames: thresholds, extensions, unwritable files, large areas and headers",
 "Each area has its own threshold, the files of a dump correspond frame by frame, every area has its file, a file that cannot be written is reported, and reading a file of noise has no undefined behaviour.",
 "all registrations, files and sizes",
 "The faults need unusual registrations, corrupted headers or particular numbers of frames.",
 ["src/Tools/Display/Dumper/Dumper.cpp: Dumper::register_data, Dumper::add, Dumper::dump, Dumper::clear", "src/Tools/Display/Dumper/Dumper_reduction.cpp: Dumper_reduction::dump, Dumper_reduction::checks", "src/Module/Channel/User/Channel_user.cpp: Channel_user::read_as_binary, Channel_user::read_as_text"])
p("C125","The CRC of several frames at once is the CRC of each of them",
 "With the vectorised CRC, checking n interleaved frames returns true exactly when the bitwise CRC accepts every one of them, that is when the generator polynomial divides each of them; building n payloads stored one after the other gives n frames stored one after the other, each accepted by the bitwise CRC, from which extraction gives the payloads back. No buffer is accessed out of bounds.",
 "all payload sizes, generator polynomials, register widths, payloads and received words",
 "The masks and strides of the vector code must be right for every combination of bits in the frames of a register.",
 ["src/Module/CRC/Polynomial/CRC_polynomial_inter.cpp: CRC_polynomial_inter::_build, CRC_polynomial_inter::_check, CRC_polynomial_inter::_extract, CRC_polynomial_inter::_generate_INTER", "src/Module/CRC/Polynomial/CRC_polynomial.cpp: CRC_polynomial::_check", "include/Module/CRC/CRC.hxx: CRC::check"])
p("C126","The CRC of several frames at once: layout of the frames and values of the bits",
 "The frames built by the vectorised CRC are accepted by its check, frames with a wrong CRC are refused, and any non-zero element counts as a one as for the bitwise CRC.",
 "all payloads, received words and register widths",
 "Tests of the check alone on interleaved frames, or of the build alone, pass.",
 ["src/Module/CRC/Polynomial/CRC_polynomial_inter.cpp: CRC_polynomial_inter::_build, CRC_polynomial_inter::_check, CRC_polynomial_inter::_extract, CRC_polynomial_inter::_generate_INTER", "src/Module/CRC/Polynomial/CRC_polynomial.cpp: CRC_polynomial::_check", "include/Module/CRC/CRC.hxx: CRC::check"])
p("C127","Channels apply the noise they draw, record it, and can be replayed",
 "The Gaussian channel outputs the sum of the input (or of the inputs of all the users) and of the noise drawn, the erasure channel the input or the erasure symbol, the binary symmetric channel the bit or its complement, the Rayleigh channel the product by the gain (complex, or its modulus) plus the noise; the noise drawn for a frame is stored at the place of this frame only. The noise recorded after each call, given to the user channel of the same kind, gives the same outputs. The Rayleigh channel with a file of gains uses each gain for the configured number of samples, in the order of the file, cyclically, over all the calls. No buffer is accessed out of bounds.",
 "all frame sizes, numbers of frames, register widths, values drawn, inputs and sequences of calls",
 "The position in the file of gains depends on the whole history of calls; the vector loops and their tails must agree for every size.",
 ["src/Module/Channel/AWGN/Channel_AWGN_LLR.cpp: Channel_AWGN_LLR::_add_noise", "src/Module/Channel/Binary_erasure/Channel_binary_erasure.cpp: Channel_binary_erasure::_add_noise", "src/Module/Channel/Binary_symmetric/Channel_binary_symmetric.cpp: Channel_binary_symmetric::_add_noise", "src/Module/Channel/Rayleigh/Channel_Rayleigh_LLR.cpp: Channel_Rayleigh_LLR::_add_noise_wg", "src/Module/Channel/Rayleigh/Channel_Rayleigh_LLR_user.cpp: Channel_Rayleigh_LLR_user::_add_noise_wg, read_gains"])
p("C128","Files of gains are read as their numbers",
 "The Rayleigh channel reads a file of gains as the sequence of its numbers and refuses a file that is empty or holds something else.",
 "all files of gains",
 "Depends on what follows the last number of the file.",
 ["src/Module/Channel/Rayleigh/Channel_Rayleigh_LLR_user.cpp: Channel_Rayleigh_LLR_user::_add_noise_wg, read_gains"])
p("C129","The dump of a histogram counts the values",
 "Dumping a histogram with accumulated values gives, for the left border, each value strictly inside of the range and the right border, the number of values up to there; without accumulation it gives for each value inside of the range its number of occurrences. With a number of rungs, the count of a rung is that of the values nearest to it, or of the values of all the rungs up to it; when values outside of the range are counted in the borders, every value is counted exactly once.",
 "all histograms, ranges, numbers of rungs and options",
 "The loop keeps one counter for the borders, the accumulated and the plain values, whose meaning depends on the options and on which keys were met before.",
 ["include/Tools/Algo/Histogram.hxx: Histogram::dump, Histogram::dump_all_values, Histogram::dump_intervals", "src/Simulation/BFER/Simulation_BFER.cpp: err_hist.dump"])
p("C130","The dump of a histogram: borders of the range",
 "Without accumulation, the line of each border is the number of values at (or beyond) this border; a histogram is dumped from its smallest to its greatest value.",
 "all histograms and ranges",
 "Only wrong when a key strictly inside of the range precedes the right border, or when none is inside.",
 ["include/Tools/Algo/Histogram.hxx: Histogram::dump, Histogram::dump_all_values, Histogram::dump_intervals", "src/Simulation/BFER/Simulation_BFER.cpp: err_hist.dump"])
p("C131","Operators, reducers, initializers and finalizers",
 "Unary and binary operators apply their operation to each element; a reducer applies its operation from left to right to all the elements of all the frames. After any sequence of changes of its data and of the number of frames, an initializer outputs for each frame the last data set for it, or that of the first frame when the frame was created later, calls with wrong sizes being refused; a finalizer holds for each frame the last data received, or zeros. No buffer is accessed out of bounds.",
 "all frame sizes, numbers of frames, operations, data and sequences of calls",
 "What a frame holds depends on the whole history of data and numbers of frames.",
 ["include/Module/Unaryop/Unaryop.hxx: Unaryop::_perform", "include/Module/Binaryop/Binaryop.hxx: Binaryop::_perform", "include/Module/Reducer/Reducer.hxx: Reducer::_reduce", "src/Module/Initializer/Initializer.cpp: Initializer::set_init_data, Initializer::set_n_frames, Initializer::_initialize", "src/Module/Finalizer/Finalizer.cpp: Finalizer::_finalize, Finalizer::set_n_frames"])
p("C132","Reducers to a wider type, refused initial data",
 "A reducer whose output type is wider than its input type computes in the output type; refused initial data leave the module unchanged.",
 "all element types and calls",
 "Only wrong for values that do not fit in the input type, or when a frame other than the first has a wrong size.",
 ["include/Module/Reducer/Reducer.hxx: Reducer::_reduce", "src/Module/Initializer/Initializer.cpp: Initializer::set_init_data, Initializer::set_n_frames, Initializer::_initialize"])
p("C133","Random events of the binary channels",
 "The events drawn depend only on the seed and on the calls made since: each is 0 or 1 according to the comparison of the probability with the next number of MT19937, one generator per lane for whole registers and the seeded one for the rest. After any history, a null probability gives no event and leaves the generator unchanged, a probability of 1 or more gives only events, a negative one none, and a greater probability gives the same events and perhaps more. So at probability 0 the erasure and symmetric channels output the bits of the input, and at probability 1 everything is erased, or every bit complemented. The values whose logarithm gives Gaussian noise are never null and never exceed 1.",
 "all seeds, register widths, lengths, probabilities and sequences of calls",
 "The events depend on the whole history of calls, on the register width and on the length; a null or infinite value may be drawn once in billions.",
 ["src/Tools/Algo/Draw_generator/Event_generator/Fast/Event_generator_fast.cpp: Event_generator_fast::set_seed, Event_generator_fast::generate", "src/Tools/Algo/PRNG/PRNG_MT19937_simd.cpp: PRNG_MT19937_simd::seed, PRNG_MT19937_simd::rand_s32, PRNG_MT19937_simd::randf_cc, PRNG_MT19937_simd::randf_oo", "src/Module/Channel/Binary_erasure/Channel_binary_erasure.cpp: Channel_binary_erasure::_add_noise", "src/Module/Channel/Binary_symmetric/Channel_binary_symmetric.cpp: Channel_binary_symmetric::_add_noise"])
p("C134","Open intervals and rare events",
 "The vector generator never returns 1 when asked for a number less than 1, and an event of probability p happens with a frequency that tends to 0 with p.",
 "all numbers drawn, all probabilities",
 "The numbers drawn that give 1 or a rare event occur about once in millions or billions.",
 ["src/Tools/Algo/Draw_generator/Event_generator/Fast/Event_generator_fast.cpp: Event_generator_fast::set_seed, Event_generator_fast::generate", "src/Tools/Algo/PRNG/PRNG_MT19937_simd.cpp: PRNG_MT19937_simd::seed, PRNG_MT19937_simd::rand_s32, PRNG_MT19937_simd::randf_cc, PRNG_MT19937_simd::randf_oo"])
p("C135","Gaussian noise drawn",
 "The noise drawn depends only on the seed and on the calls made since. Whatever the length and the register width, every place of the buffer receives a value of Box and Muller's method computed from two consecutive numbers of MT19937 that are used for no other pair, and nothing is written elsewhere. The numbers behind the noise do not depend on the standard deviation, the mean or the buffer. Whatever is drawn, a null standard deviation gives the mean everywhere: no value is infinite or not a number. The Gaussian channel adds this noise, scaled by the standard deviation of the call, and without noise it outputs its input.",
 "all seeds, register widths, lengths, standard deviations, means and sequences of calls, all library functions",
 "The numbers used depend on the whole history and on the length modulo the registers; the dangerous values are drawn once in billions.",
 ["src/Tools/Algo/Draw_generator/Gaussian_noise_generator/Fast/Gaussian_noise_generator_fast.cpp: Gaussian_noise_generator_fast::set_seed, Gaussian_noise_generator_fast::generate", "src/Tools/Algo/PRNG/PRNG_MT19937_simd.cpp: PRNG_MT19937_simd::seed, PRNG_MT19937_simd::rand_s32, PRNG_MT19937_simd::randf_oo", "src/Tools/Algo/PRNG/PRNG_MT19937.cpp: PRNG_MT19937::randf_oo"])
p("C136","Noise of any frame",
 "Noise can be drawn for every frame of a channel whatever the size of the frames.",
 "all sizes and numbers of frames, all register widths",
 "Fails only for sizes that are not multiples of the register with several frames, on machines where alignment is required.",
 ["src/Tools/Algo/Draw_generator/Gaussian_noise_generator/Fast/Gaussian_noise_generator_fast.cpp: Gaussian_noise_generator_fast::set_seed, Gaussian_noise_generator_fast::generate", "src/Module/Channel/AWGN/Channel_AWGN_LLR.cpp: Channel_AWGN_LLR::_add_noise"])
p("C137","Numerical integration and linear interpolation",
 "For any number of points, the sequential trapezoidal rules give the sum of the areas of the trapezoids, for a constant step and for any abscissae, the cumulated rule gives at each place the integral up to it, and the vector rule of rectangles gives the sum of the ordinates times the step. The linear interpolation of a value that does not exceed the last of sorted abscissae is on the segment that contains it, so between the ordinates of its ends, and is the first ordinate before the first abscissa. No array is read or written out of bounds.",
 "all numbers of points, abscissae, ordinates, values and register widths, in exact arithmetic",
 "The number of points modulo the register width and the place of the value among the abscissae select different paths.",
 ["include/Tools/Math/numerical_integration.hxx: trapz_integral_seq, cumtrapz_integral_seq, rect_integral", "include/Tools/Math/interpolation.hxx: linear_interpolation"])
p("C138","Vector trapezoidal rule, interpolation after the last point",
 "The vector trapezoidal rule gives the sum of the areas of the trapezoids, and a value greater than all the abscissae is interpolated without reading out of the arrays.",
 "all numbers of points and values",
 "A random value greater than the last cumulated probability is drawn rarely, and the read out of bounds often has no visible effect.",
 ["include/Tools/Math/numerical_integration.hxx: trapz_integral", "include/Tools/Math/interpolation.hxx: linear_interpolation"])
p("C139","Noise of a distribution given by the user",
 "For a distribution given by points and probabilities, normalised or not, the points of null probability are dropped, the cumulated probabilities are strictly increasing and end at 1, and for every random value of [0, 1] the noise is found without any access out of the arrays and lies between the first and the last points of probability not null. An empty distribution and one whose sum is null are refused.",
 "all sorted points, all probabilities that are not negative, all random values, in exact arithmetic",
 "Depends on where the null probabilities are and on the random value, the extreme ones being drawn rarely.",
 ["src/Tools/Math/Distribution/Distribution.cpp: Distribution::compute_cdf, Distribution::compute_cdf_summation", "src/Tools/Algo/Draw_generator/User_pdf_noise_generator/Fast/User_pdf_noise_generator_fast.cpp: User_pdf_noise_generator_fast::generate", "include/Tools/Math/interpolation.hxx: linear_interpolation"])
p("C140","Sorting points with their ordinates, and finding the closest value",
 "Sorting points by their abscissae returns the same points, each with its own ordinate, in the order of the abscissae, and keeps the order of the points with the same abscissa. A distribution may thus be given in any order. In a sorted range that is not empty, the closest value search returns a value of the range such that no other one is closer.",
 "all lists of points, all sorted ranges and all values looked for, in exact arithmetic",
 "Depends on the order of the points, on repeated abscissae and on where the value lies in the range.",
 ["include/Tools/general_utils.hxx: mutual_sort, get_closest, get_closest_index", "src/Tools/Math/Distribution/Distribution.cpp: Distribution::compute_cdf"])
p("C141","Removing the points with a repeated abscissa",
 "Removing the points with a repeated abscissa keeps the first point of each group of consecutive points with the same abscissa, and nothing else is removed.",
 "all lists of points",
 "Depends on where the repetitions are.",
 ["include/Tools/general_utils.hxx: mutual_unique"])
# NEW
json_lines=[json.dumps(x,ensure_ascii=False) for x in P]
import os
extra="/tmp/gen/extra.jsonl"
open("/verif/properties.jsonl","w").write("\n".join(json_lines)+"\n")
print(len(P))
import re
for x in P:
    for a in x["anchors"]:
        f=a.split(":")[0]
        if not os.path.exists("/repo/"+f): print(x["id"],"missing",f)
