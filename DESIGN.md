# Formal model of aff3ct in Lean 4 — design

## 1. Layout

```
lean/Verif/Prelude/   the execution monad, loops, list/array lemmas (nothing about aff3ct)
lean/Verif/Model/     the model: every definition cites the file and lines of /repo it models
lean/Verif/Spec/      small, model-independent specifications used by the statements
lean/Verif/Proof/     helper lemmas
lean/Verif/Props/     the property theorems (one file per area) + non-vacuity examples
```

`properties.jsonl` lists the properties, `MANIFEST.json` maps each to its theorems,
`seeded/LOG.jsonl` logs the mutation tests of the theorems.

## 2. Modelling conventions

* **Outcomes.** A C++ function that can throw or touch memory is a function into
  `Exec α = ok a | exc e | ub`.  `exc` is a thrown C++ exception, `ub` is undefined behaviour
  (out-of-bounds read/write, negative shift, ...).  Buffers are `List α`; `rd`/`wr` return `ub` out of
  bounds.  So a theorem `f x = ok y` includes memory safety of `f` on `x`.
* **Loops** `for (i = a; i < b; i++)` are `forN`/`forRange`, executed in the monad in program order.
* **Integers** are unbounded `Nat`/`Int` unless the property is about wrap-around; machine words are
  `BitVec w` where the code relies on bit patterns (CRC tables, MT19937).
* **Bits** are `Bool` where the code only uses their truth value, else `Nat`/`Int`.
* **Reals.** Floating point is not modelled (but for the binary32 quotient of `Module`'s number of waves, C55); code generic in the real type is modelled over an ordered
  field / over `Int` fixed point; rounding of IEEE arithmetic is outside the model.
* **Threads.** A concurrent component is a labelled transition system whose steps are the atomic actions
  of the code (one atomic load/store, one mutex section, one memcpy); theorems quantify over all runs.

## 3. Trusted base

* Lean 4.33.0's kernel.  Axioms: at most `propext`, `Classical.choice`, `Quot.sound`.  No axioms added,
  no `sorry`, no `native_decide`/`bv_decide`.
* The reading of the C++ source: the model is hand written; each definition cites its source.
* Not modelled: floating point rounding, SIMD intrinsics (modelled as lane-wise operations where noted),
  memory allocation failure, int overflow on sizes, MPI, I/O formatting, the factory/CLI layer, display.

## 4. Plan per property

| id | model | proof |
|----|-------|-------|
| C01 | `Interleaver_core::refresh`, `Interleaver::_interleave` in `Exec` | pointwise loop invariants; permutation ⇒ inverse |
| C02 | every `gen_lut`; random ones parametrised by the shuffle outcome | arithmetic bijections for all sizes; finite standard tables by `decide +kernel` over the whole table; negation for the bad row |
| C03 | `read_lut` on token lists | invariant of the reading loop |
| C04–C05 | `_generate/_build/_check` | invariant: word ≡ remainder modulo generator in `GF(2)[X]` |
| C06 | table, `compute_crc_v3` on `BitVec 32` | LFSR simulation lemma |
| C07–C08 | `_pack/_unpack`, both overloads | loop invariants, base-2 expansion; in place: counterexample |
| C09–C11 | in-place butterflies, `is_codeword`, systematic encoder | induction on n; domination order |
| C12–C15 | RSC tables and `__encode` | invariants on the state register |
| C16, C19 | LFSR division encoders | polynomial remainder |
| C17–C18 | `Galois`, generator constructions | GF(2)[X]/(p), order of α by exponent factorisation |
| C20 | genius decoders | direct |
| C21–C22 | repetition, RA | direct / prefix XOR |
| C23 | puncturers | every loop nest is reduced to one canonical pass over the codeword; counting lemmas |
| C24 | LDPC encoders and their constructors, LU inversion, DVB-S2 tables | sums over GF(2); elimination keeps the solution set of the augmented system; acceptance of the 21 tables by kernel evaluation lifted by a lemma |
| C53, C54 | `Full_matrix`, `matrix_utils`, `LDPC_matrix_handler` inversion and identity method | loop invariants on rectangular lists of lists; weak (never throws) invariants for the undefined cases |
| C25–C27 | `Sparse_matrix`, `LDPC_syndrome`, `QC` | representation relation to a finite set of connections, kept by every operation; loop invariants |
| C28–C30 | `Monitor_BFER` and `Monitor_reduction` as state machines with 64-bit counters and histograms | agreement with a log of frames, induction over histories |
| C57, C58 | `Histogram`, `Callback` | induction over histories |
| C59 | corner cases of monitors | false of the code, witnesses |
| C31–C33 | both adaptors as one transition system, a step per shared access (counter, flag, mutex, condition variable, socket copy); copy mode only, no 64-bit wrap | invariants over all schedules (mutexes, counters, wake-ups, buffer contents, round robin order); ranking function for termination |
| C34, C55 | `Task::exec` over waves with real memory windows; `Module` frame counts with binary32 division | invariants over waves; induction over histories; rounding lemma |
| C56 | corner cases of C34/C55 | false of the code, witnesses |
| C35 | sockets as a net of numbered states (type, size, pointer, bindings), calls as steps with normal, exceptional or undefined outcome | invariants by induction over histories |
| C36 | iterators, controllers, switchers (copy mode) as state machines; execution of a graph of sub-sequences with fuel, on the graph of a loop | induction on the number of calls and of turns |
| C60, C61 | corner cases of C35, C36 | false of the code, witnesses |
| C37 | quantizers over IEEE binary formats (rationals, rounding to nearest even, infinities, NaN): `Prelude/Float.lean` | monotonicity and exactness of rounding, order reasoning |
| C62 | corner cases of C37 | false of the code, witnesses |
| C38 | tree sorter | tournament invariant, any history of calls |
| C63 | corner cases of C38 | false of the code, witnesses |
| C39 | reorderer, lane-level registers | induction on log2 n_frames |
| C64 | corner cases of C39 | false of the code, witnesses |
| C40 | MT19937 on `BitVec 32` | unrolled loop = recurrence |
| C65 | conversions to real numbers, IEEE formats | exactness or monotonicity of rounding |
| C66 | corner cases of C40, C65 | false of the code, witnesses |
| C67 | `Decoder_BCH_std`, its tables kept between calls | Berlekamp's iteration and the Chien search refine field computations; the recurrence invariant gives the error positions (Vandermonde), any history |
| C68 | shortened codes | false of the code, witnesses |
| C69 | `Decoder_RS_std`, its tables kept between calls, packing and unpacking of symbols | C67's iteration, plus Forney's formula for the error values; any history |
| C70 | shortened codes, wide symbols | false of the code: the received words with an out-of-bounds write are characterised, witnesses |
| C71 | `Sequence::init`, `init_recursive` (standard case), one round of `_exec` | invariant of the recursive walk: which tasks are fed and how many times; fuel above the number of tasks suffices; dataflow by induction on the order |
| C72 | what the sequence records; `clone` | false of the code: the recorded first tasks are characterised for every program, witnesses for copies and cycles |
| C73 | `Decoder_polar_SC_naive`, `_sys`, `Binary_tree`, `f_LLR`, `g_LLR`, `h_LLR` for 8 and 16 bits, `float`, `double` | induction on the tree: decoding a node is a functional recursion, itself equivalent to deciding bits in order by Arıkan's recursion; votes are kept by `f` and `g` |
| C74 | extreme soft values | false of the code: witnesses |
| C75, C76 | `Decoder_maximum_likelihood_std`, `Decoder_maximum_likelihood_naive` with any encoder | the unpacked integers are all the words of the size, once each, in order (C05); invariant of the loop: the first least distance so far; integers below 2^24 are exact in `float` |
| C77, C78 | `Decoder_chase_std` with any encoder and any sort that satisfies the specification of `std::partial_sort` | a test is a word that differs from the hard decisions at tested positions, and conversely; invariant of the loop: the first least cost so far; sums of reliabilities are the loss of correlation |
| C79, C80 | `Decoder_LDPC_BP_peeling` on the sparse matrix objects of C26, with its early stop; `hard_decide_unk` of C47 | the links left are those of the unknown variables and each check holds the parity of the known ones; a sweep refines peeling steps, is idempotent once it changes nothing or is done; induction on the iterations with the number of erasures as measure |
| C81, C82 | `Constellation`, `Constellation_PAM`, `_QAM`, `_PSK`, `_user` over the rounded arithmetic of `float` and `double`; square root, sine, cosine and complex division are parameters | the amplitude is an integer recurrence, exact in the type; induction on the bits for the Gray property, the range and the energy; rounding moves a quotient by less than half of the gap |
| C83, C84 | `Modem` and `Modem_generic` over the rounded arithmetic: sizes, modulation, filter, the four demodulators, the recorded channel parameter and the scale computed from it; `tmodulate` is not modelled | the maximum by induction on the labels; an invariant on the recorded parameter over all histories; monotonicity of rounding for the decisions, and a grid argument (the difference of two representable numbers is not rounded to zero) for the recovery |
| C85, C86 | the BPSK (plain and fast) and the OOK modems on the Gaussian, erasure and symmetric channels, over the rounded arithmetic, and the two binary channels with their draws as parameters; optical modems are not modelled | loops reduced to `map`; relative error of each rounding bounded in the middle of the range; an invariant on the recorded parameter |
| C87, C88 | `Decoder_polar_SCL_naive` and its systematic and CRC versions on one frame: the trees of all paths by depth and lane, the lazy copies, the metrics with the arithmetic of each type; the sort and the CRC are parameters; the fast and MEM_fast versions are not modelled | refinement to an abstract list of paths (each tree agrees with its path on the nodes that will be read), itself an instance of the inductive relation of the specification; cost of a path = sum of penalties = distance to its codeword; invariants on the metrics of the true path and of the others |
| C89–C91 | `Decoder_LDPC_BP`, `_flooding`, `_horizontal_layered`, `_vertical_layered` on one frame with the update rules MS, OMS, NMS, AMS, SPA and LSPA: message memories, transposition, syndrome criterion and counters; the arithmetic is a record instantiated by floats with signed zeros and by wrapping integers; tanh, atanh, log and exp are parameters; the inter-frame versions are not modelled | refinement of the memories to messages indexed by (check, variable); invariant over histories; the incremental minima equal the minimum of the others by induction on the list; signs of the messages of a codeword by induction on the iterations; equivariance under sign flips |
| C92–C93 | `Decoder_RSC_BCJR`, `_seq_generic`, `_seq_generic_std` (implementation GENERIC, `max` as both operators): the three decoding functions with the normalizations and the arithmetic of short, signed char, float and double; not the specialized (FAST, VERY_FAST, inter, intra) versions nor the max-star operators | trellis tables shown to be the graph of the code; forward and backward recursions are maxima over paths, by induction on time; an embedding of exact integers into each arithmetic, sound within bounds (normalization every 8 steps for short, exact sums in floating point); maxima over paths are maxima over codewords |
| C94–C96 | `Encoder_turbo`, `Encoder_turbo_legacy`, `Decoder_turbo`, `Decoder_turbo_std`, post-processings `Scaling_factor_{seq,constant,adaptive}`, `CRC_checker`, `Self_corrected`, `Flip_and_check`, over the models of C12–C15 (RSC), C01–C02 (interleavers) and C92 (BCJR); not `Decoder_turbo_fast`, the `array` scaling nor several frames per wave | encoders: buffers related to the two codewords, by the loop invariants; decoder: an inductive relation `Run` for the iterative decoding on exact integers, refined by each half iteration through C92; recovery by an invariant on the signs of the extrinsic LLRs, existence of the run by a bound on their growth; early termination by simulation of the decoder without checks |
| C97–C98 | `Decoder_polar_SC_fast_sys`, `Pattern_polar_parser` and the seven patterns, `API_polar_dynamic_seq`, `fb_extract`; not the vectorised functions nor several frames per wave | the in-place recursion is refined to a function `dec` on the parsed tree (`Proof/PolarFast`), the parser to the relation `Lab` between frozen bits and tree (`PolarFastParse`); on exact integers each pattern is the unique codeword of greatest correlation, as is successive cancellation on it without ties (`PolarFastExact`, `PolarFastML`); the types embed small integers exactly (`PolarFastNum`); votes (`PolarFastVotes`, `PolarFastTypes`) give the round trips, and bounds give totality; C98 by witnesses |
| C99–C102 | `Encoder_RSC_DB`, `Encoder_turbo_DB` whole, except the checks of the sizes of the constant polynomials and of the numbers of frames | the tables are computed by the model of `calc_state_trans` and compared in the kernel with the equations of the registers (8 and 16 states, 4 inputs: complete domains); paths of any length by induction, circulation states by the linearity of the transition (`run_xor`) and its period (`pow_mod`), which reduce the fixed point of a path to the 6 × 8 or 14 × 16 entries of `circ_states`; the turbo encoder by an invariant on its buffers and loops (`Proof/RSCDBTurbo`); C100 for all messages, C102 by a witness and for all frames |
| C103–C104 | `Encoder_turbo_product` whole, `compute_parity`, with the BCH encoders and row-column cores already modelled | the loops are reduced to matrices of bits (`encode_mat`); component encoders are linear maps that reach all codewords (`compOk`, from C16); rows of the result are combinations of message rows (`rows_code`, induction on the rows); uniqueness from the systematic positions; C104 by witnesses |
| C105–C106 | `Polar_code` without its file reader, `Encoder_polar_MK`, `Encoder_polar_MK_sys` whole | bits are sent to `ZMod 2`; each stage is a sum over the digits it acts on (`stageLoop_sat`) and stages compose to the Kronecker product (`T_snoc`, induction on the stages); `determinant_of_matrix` is the determinant of Mathlib (`determinant_eq`, induction on the size); inverse kernels give an inverse product (`Inv.mul`); C106 by the converse (`null_of_singular`) and witnesses |
| C107–C108 | `Sink_user_binary`, `Source_user_binary` whole, without `fifo_mode` and input/output errors; the reading loop has a bound on its turns and reports when it has not ended | invariants over histories: position in the stream of bits, bits kept between calls (`Sink.At`, `Source.At`, `Source.Cyc`), on top of the theorems about `Bit_packer` (C07); the loop by induction on its turns; C108 for all lengths or files where stated, and witnesses |
| C109–C110 | `Extractor` and its four subclasses (`get_sys_llr`, `get_sys_bit`, `get_sys_and_par_llr`, `add_sys_and_ext_llr`, `set_frozen_bits`), `Coset_bit`, `Coset_real`; LLRs abstract | loop invariants (`store_sat`, `compress`, `addLoop_sat`), induction over the history of frozen bits; the round trip uses the systematic theorem of the RSC encoder (C13); C110 in general |
| C111–C112 | `Encoder_RA`, `Decoder_RA` whole, on top of the interleaver model (C01); arithmetic of LLRs as a parameter, instantiated by ordered groups and by `w`-bit integers | loops computed as recursive functions (`fwF`, `bwF`, `tuF`, `totF`, `tdI`); symmetry by induction over positions and iterations; correct decoding from symmetry and positivity on the all-zero codeword; C112 for all decoders or witnesses |
| C113–C114 | `Source_user`, `Encoder_user`, `Channel_user{,_add,_be,_bs}` with text files as token streams, `Source_random_fast` with the generators as parameters; binary noise files, numbers out of range and misaligned outputs are not modelled | files by induction on frames; histories by an invariant on the counter; vector and scalar loops as one table; C114 for all files and sizes, or witnesses |
| C115–C116 | `Decoder_LDPC_bit_flipping_OMWBF` over an abstract arithmetic (instantiated by saturating integers and IEEE floats), `Decoder_LDPC_probabilistic_parallel_bit_flipping` over an abstract random source; wave batching and the packing of draws are not modelled | refinement of the buffers to the mathematical iteration, then induction on iterations; C116 by witnesses and one general theorem |
| C117–C118 | `Decoder_LDPC_BP_flooding_Gallager_{A,B,E}`: constructor, iterations on the two message layouts, votes, stop criterion, the four decoding calls; wave batching is not modelled | refinement of the byte encodings and layouts to signs on the edges of the graph, then induction on iterations (symmetry, null word); C118 by witnesses |
| C119–C120 | `AList::read` (three formats tried in turn), `write`, `read_info_bits_pos`, `write_info_bits_pos`, on files seen as lists of lines of words; `read_matrix_size` and memory exhaustion are not modelled | induction over the rows of the file: the first reader accepts the right matrix or refuses, the second one accepts; for the third format the first reader would need more words and the second one more lines; invariant of `add_connection` for arbitrary files; C120 by a general theorem and witnesses |
| C121–C122 | `Frozenbits_generator::generate`, the file, 5G, BEC and Gaussian-approximation generators, `fb_assert`; floating-point formulas are parameters; the external TV generator and the multi-kernel GA generator are not modelled | loop invariants; the in-place butterfly is shown to compute the channel transform read from the bits of the index, by induction over the stages; the mean by induction in a commutative ring; C122 by general theorems and witnesses |
| C123–C124 | `Dumper`, `Dumper_reduction` and the binary reader of `Channel_user`, on memory seen as bytes and a file system seen as a function of the paths; floating-point values in text files (printed with six digits) are not modelled | induction over the calls; composition with the readers of C113; case analysis of the first bytes for the text detection; C124 by general theorems and witnesses |
| C125–C126 | `CRC_polynomial_inter`, the vector operations element by element, for every width of the registers | the division on each interleaved frame and the division of the bitwise CRC are both shown equal to one function on frames; composition with C05; C126 by witnesses |
| C127–C128 | the tasks of the AWGN, binary erasure, binary symmetric and Rayleigh channels, the gains read from a file; random values are parameters | loops as pointwise maps; invariant on the position in the gains over any sequence of calls; composition with C113 for the replay; C128 by induction on the file |
| C129–C130 | `Histogram::dump*` on the entries of the map; the counts of the lines | split of a sorted map in three parts, folds; the masses are related to the recorded values through `Hist.Holds` (C57); C130 general for the default options of the simulations |
| C131–C132 | `Unaryop`, `Binaryop`, `Reducer`, `Initializer`, `Finalizer` | loops as maps and folds; refinement of the data of the frames over any sequence of calls; C132 by witnesses |
| C133–C134 | `Event_generator_fast`, `PRNG_MT19937_simd` (a scalar generator per lane) and the binary channels fed by it | refinement of the events over any sequence of calls to the numbers of MT19937; bounds of the rounded quotients; composition with C127; C134 by witnesses |
| C135–C136 | `Gaussian_noise_generator_fast` for floats; library functions as parameters | invariant of the registers of random numbers, refinement over any sequence of calls, bounds of `randf_oo`; C136 by a direct theorem |
| C137–C138 | `numerical_integration.hxx` on arrays, `linear_interpolation`, in exact arithmetic | loops as finite sums; position found by `lower_bound`; C138 as theorems for all inputs |
| C139 | `Distribution` in mode `SUMMATION`, noise of a user distribution, in exact arithmetic | induction on the points; composition with C137 |
| C140–C141 | `mutual_sort`, `mutual_unique`, `get_closest_index`, in exact arithmetic | induction on the points; loop invariant of `mutual_unique`; C141 is false of the code and its negation is proved |
| C41–C42 | reordered interleaving, packed CRC check | as C01, C06; counterexamples |
| C43–C44 | as C16–C19 | Vandermonde argument; counterexamples |
| C45 | `Distance<T>::apply` with wrapping lanes | lane sums bounded, sums by blocks |
| C46–C47 | `hard_decide`, `hard_decide_unk` | element-wise loops; counterexamples |
| C48 | recording encoder, genius decoders | counterexamples |
| C49 | `Decoder_RA::_decode_siho` over an ordered group | sign invariants through the iterations |
| C50 | constructors and loops of the puncturers | witnesses of accepted sizes that fail; true part in C23 |
| C52 | `bgemm`, `bgemmt`, `check_GH`, `interleave_matrix` | counting common connections; bijection of columns |
| C51 | `gen_frozen_bits`, polar encoder | counting over a permutation; triangularity of the transform |

Findings (places where the code violates the property) are recorded in section 5 as they are proved.

## 5. Findings

Each line: what the code does, and the theorem that proves it of the model.

* `Interleaver_core_CCSDS/DVB-RCS2`: the DVB-RCS2 table entry of size 1777 is not a permutation (`C02_rcs2_1777_not_permutation`).
* `Interleaver::interleave_reordering` uses a stride that disagrees with the buffer (`C41_*`).
* `Bit_packer::unpack` in place is undefined for two frames or more (`C08_unpack_in_place_ub`).
* `Bit_packer::pack`/`unpack` on vectors: size checks insufficient for several frames, and computed with `sizeof(B)`
  where `sizeof(S)` is meant (`C07_vector_check_insufficient`, `C07_unpack_check_wrong_type`).
* `CRC_polynomial::_check_packed` is undefined for every object and content (`C04_check_packed_ub`).
* `Encoder_polar` accepts lengths that are not powers of two and then reads out of bounds (`C09_non_power_of_two_ub`).
* `Encoder_polar::is_codeword` never looks at the last position (`C10_last_position_not_checked`).
* `Encoder_polar_sys` is not systematic for frozen sets that are not convex for bit domination (`C11_not_systematic`).
* `Galois<I>` accepts `m` equal to the width of `I` and then indexes with a negative number (`C17_full_width_ub`);
  `N <= 0` is used in the member initialisers before it is checked (`C17_nonpositive_ub`).
* `Encoder_RS`: `info_bits_pos` starts at the number of parity symbols, not bits (`C19_info_positions_wrong`);
  shortened codes reduce exponents modulo `N_rs` instead of `2^m - 1` (`C19_shortened_wrong`); symbols as wide as the
  element type become negative indices (`C19_full_width_ub`).
* `hard_decide` decides a negative zero 1 in whole registers and 0 in the remainder (`C47_negative_zero`);
  `hard_decide_unk` finishes with the plain `hard_decide_seq`, so unknown values of the remainder are not marked
  (`C47_unknown_tail`).
* A recording encoder whose frame count is not a multiple of the wave size writes past its recorded words
  (`C48_partial_wave_ub`); the `CWD` output of the genius BCH decoder is always 0 (`C48_bch_cwd_zero`); the genius RS
  decoder always throws `unimplemented` (`C48_rs_always_throws`).
* `Decoder_repetition_std` in 8 bits wraps: two copies received as +100 are decided 1 (`C21_wraps_8bit`).
* `Decoder_RA` accepts `K = N = 1` and then writes `Bw[-1]` (`C49_single_ub`).
* `Puncturer_LDPC` accepts patterns whose length does not divide `N_cw`; depuncturing then leaves the last values of the
  frame unwritten (`C50_ldpc_tail`).
* `Puncturer_turbo` with buffered encoding and a tail length that is not a multiple of 4 writes fewer values than `N`
  (`C50_turbo_tail`).
* `Puncturer_turbo_DB` rounds `K / N` to a percentage: `K = 100, N = 199` is taken for rate 1/2 and 200 values are
  written to an output of 199 (`C50_turbo_db_overflow`).

* `Adaptor::deep_copy` gives every clone its own cancel flag: `cancel_waiting` on one object wakes the threads of the other
  clones but they go back to sleep (`C33_cancel_one_object`).  `Pipeline` cancels every clone, so pipelines are not affected.
* `Sparse_matrix::self_resize` to a size with no row or no column dereferences `end()` (`C26_resize_empty`).
* `QC::read` stores shifts on 16 bits: 65535 becomes a null block for every lifting size (`C27_narrowing`); entries below -1
  are taken as shifts modulo 2^32 and the block is not a permutation (`C27_negative`).
* `Encoder_LDPC_from_IRA` accepts any matrix of the right size; without a double diagonal its outputs are not codewords
  (`C24_IRA_unchecked`).
* `Full_matrix::self_resize` anchored at the top right, with more rows and fewer columns, erases columns from the rows it has
  just created: undefined behaviour or rows too short (`C53_resize_top_right`, `C53_resize_short`).  As a consequence
  `transform_H_to_G_identity`, the default method of `Encoder_LDPC_from_H`, is undefined for every parity check matrix
  (`C24_identity_ub`); when `M <= K` the writes fall in the spare capacity of the vectors and the call seems to work.
* `Full_matrix::self_resize` gives the vector of column degrees the size `n_rows` (line 169): adding a connection beyond it is
  undefined (`C53_degrees`).
* `Task::exec(0)` processes the whole first wave when waves hold several frames (`C34_frame_zero`).
* `Module` computes the number of waves in single precision: 2^25+1 frames in waves of one frame give 2^25 waves
  (`C55_float_waves`).
* `Module::set_n_frames` with a bound socket throws after having changed the number of frames (`C55_bound_not_restored`).
* `Monitor_BFER::check_errors` with a frame identifier above 0 compares and counts all the frames of the internal copies, of
  which only the one designated was refreshed (`C59_frame_id`).
* The number of wrong bits of a call is summed in an `int` (`C59_overflow`).
* `Monitor_reduction` dereferences the first monitor before it checks for null pointers (`C59_null_first`).
* `Callback::record` gives the identifier of the last function plus one, so identifiers of removed functions are reused
  (`C59_stale_id`).
* `Socket::reset` erases elements of `bound_sockets` while a range-based loop goes through it: with two or more bound sockets
  it reads beyond the end (`C60_reset`).
* In fast mode `Socket::bind(vector)` stores the pointer before checking the size and throws after it (`C60_fast_vector`).
* `Socket::bind` does not check directions; binding again the middle of a chain leaves a stale pointer at its end
  (`C60_chain`).
* `Sequence` resets the switchers, not the iterators, before each execution: after an abort in a loop body the next loop runs
  fewer times (`C61_abort`).
* The path goes from controllers to switchers as an `int8_t`: with more than 128 paths the wrong one may be taken
  (`C61_many_paths`).
* `Iterator` with the limit `SIZE_MAX` and `Controller_cyclic` with zero paths divide by zero (`C61_greatest_limit`,
  `C61_no_path`).
* `Quantizer_pow2` and `Quantizer_custom` convert a NaN to an integer (undefined); a null range (or a first frame most values of
  which are null) makes the scale factor infinite, and the quantization of 0 a NaN (`C62_nan`, `C62_null_range`).
* `Quantizer_pow2<float,float>` (`<double,double>`) sets every value to 0 (`C62_float`).
* Constructors of quantizers shift by the positions before they check them (`C62_shift`).
* `Quantizer_pow2_fast` gives the most negative value to values above 2^31 (and +inf), and rounds halves to even in the
  vectorised part but away from zero at the end of the frame (`C62_fast_sign`, `C62_fast_ties`; x86 semantics assumed).
* `LC_sorter::partial_sort` ignores values when their number is not a power of two (`C63_three`), is undefined for one value
  (`C63_one`), returns the same position several times when values equal the greatest of the type (`C63_greatest`) or when `K`
  exceeds their number (`C63_too_many`), and writes out of bounds when `pos` is shorter than `K` (`C63_overflow`).
* `Reorderer::apply_rev` (vectorised) exchanges frames when neither log2 W nor log2 W - 1 is a multiple of log2 n_frames, W
  being the number of elements of a register: 8 frames of `int8_t` with 256-bit registers for instance (`C64_exchanged`).
* `PRNG_MT19937::randf_co` and `randf_oo`, documented as numbers of [0,1) and (0,1), return 1 for the 128 greatest numbers drawn:
  `(float)UINT32_MAX` is 2^32 (`C66_randf_co`, `C66_randf_oo`). `rand_u64` depends on the order of evaluation (`C66_order`).
* `Decoder_BCH_std` with a shortened code drops the corrections that fall in the missing positions and still reports a success and
  `CWD = 1`: the output need not be a codeword (`C68_shortened_not_codeword`). It reduces exponents modulo
  `next_power_of_2(N) - 1`, not modulo the order of the field: with a code shortened below half of its length, accepted by the
  constructor, codewords received without error are refused (`C68_short_refused`). The product `i * j` of the syndromes overflows
  `int` when 2t(N-1) reaches 2^31 (hypothesis of C67).
- **C70, Reed–Solomon decoder**: the corrections are applied at every position found, including those removed by shortening:
  when a codeword of the full code with a non-zero symbol beyond N is at most t symbols away from the received ones, `Y_N[loc[i]]`
  is written out of bounds (`C70_shortened_overrun`, for every code and history; `C70_overrun_witness`). As in the BCH decoder the
  order of the field is computed from N, and codes shortened below half of their length refuse error-free codewords
  (`C70_short_refused`). The constructor, unlike that of the encoder, does not compare m with the width of B, and with m equal to
  this width (`int8_t`, m = 8) symbols are negative indexes (`C70_full_width_ub`).
- **C72, sequences**: `firsts_tasks_id` is pushed before the task is added, so with several first tasks the sequence reports, in
  place of each one but the first, the task executed just before it (`C72_firsts_wrong`, for every program; `C72_two_firsts`). A task
  whose consumers all wait for other inputs when it is added is recorded as a last task: the decoder of the usual chain is one, and
  `clone`, which stops at the last tasks, throws (`C72_clone_throws`). A cycle through a first task is an infinite recursion
  (`C72_cycle_overflow`). A first task fed by another one is added twice, through an invalidated iterator (`C72_first_fed_ub`).
- **C74, polar decoding**: `f_LLR<int8_t>` of two values `-128` is `-128` (the opposite does not fit), so two inputs that agree on a
  codeword are decoded as another one (`C74_int8_min`); `f_LLR<float>` takes the sign of a product that underflows to zero, so
  inputs below about `2^-75` lose their sign (`C74_float_underflow`; no loss from `2^-74` on, `C73_float`).
- **C76, maximum likelihood**: the constructors accept 64 bits, but the loops then stop after the first candidate (the guard against
  the overflow of the counter is a `break` that does not look at the counter), so every frame is decoded as zero (`C76_std_64`,
  `C76_naive_64`). An infinite input makes every distance infinite, none is below `FLT_MAX`, and the output is what was there: the
  message of the previous frame (`C76_infinite`, `C76_history`). The sum of squares absorbs small inputs beside large ones
  (`C76_absorbed`); the correlation would not.
- **C78, Chase**: `best_test` is set to 0 only by the constructor. When no test gives a codeword, the test found for a previous frame
  is applied to this one, which corrupts up to `max_flips` bits that were not changed by any decision (`C78_stale`, for every code and
  every history; `C78_history`). The constructor does not compare its sizes with those of the encoder.
- **C80, peeling**: `CWD` says that all the checks have been used, not that they are satisfied: it is 1 for every word without
  erasures, whatever its syndrome (`C80_blind`). It may be 0 although everything is recovered (`C80_late`): a check visited before its last
  variable is recovered counts as not done. `hard_decide_unk` ignores erasures after the last whole register (C47), so the decoder takes
  them for known zeros and announces success (`C80_tail`). `sat_val<int64_t>` is not specialized and is 0: with 64-bit bits the unknown
  symbol is the bit 0 and the all-zero codeword fails (`C80_wide`). `check_LUT` does not bound the positions (`C80_info`).
  `_decode` reads `vn_pos`, a reference to the only element of a vector, after `rm_connection` has erased it (lines 87-96): this is undefined
  in the standard; the model takes the value to be still there, as common implementations leave it.
- **C82, constellations**: `Constellation_PAM` computes the energy from the square of the number of points in `unsigned`: from 16 bits on it wraps to
  0, the square root is taken of -1/3 and all points are NaN (`C82_pam`). `Constellation_QAM` with an odd number of bits ignores the last
  one, so words are mapped in pairs to the same point, and nothing refuses it (`C82_odd`). With no bit, `bits[0]` of an empty buffer is read
  (`C82_empty`). `Constellation_user` never calls `build()`, as the header demands, so `is_complex` is true even for real points
  (`C82_complex`); a blank line makes it read the first element of an empty vector (`C82_blank`).
- **C84, modem**: `Modem::filter` records the channel parameter, but only the demodulators compute the scale, and only when the parameter
  differs from the recorded one: after `filter` the demodulation with the same parameter uses the previous scale, or 1 (`C84_filter`; on a BPSK
  with a standard deviation of 1/2 the LLR of 1 is 4 instead of 8). The initial recorded parameter is the greatest `float`, which is then never seen as
  new (`C84_first`). The number of symbols is computed by `std::ceil((float)N / (float)bps)`: for 2^24 + 1 bits it is one too small, and `modulate`
  writes past the output (`C84_size`). When `N` is not a multiple of the bits per symbol, `demodulate` counts points that cannot have been sent and
  may decide for the wrong bit, whereas `tdemodulate` does not (`C84_last`). A prior LLR of minus infinity makes the other bits of the symbol
  NaN (`C84_nan`).
- **C86, BPSK and OOK**: as in C84, `filter` records the parameter without computing the factor (`C86_filter`); on the symmetric channel the
  factor is still 0 and all LLRs are null (`C86_null`). `Modem_OOK_AWGN` multiplies by `2 * sigma * sigma` where the log-likelihood ratio divides by
  it: for a standard deviation of 2 the LLR of the point 0 is 8 instead of 1/8, so that the LLR grows with the noise (`C86_ook`); with gains, the
  threshold stays one half instead of half of the gain, and values nearer to 0 are decided 1 (`C86_gain`). A standard deviation whose square is
  rounded to 0 gives NaN for a null value (`C86_nan`), as does an error probability of 1 (`C86_one`). `Modem_BPSK_fast` for types without a
  specialized modulation is built and throws at the first frame (`C86_fast`).
- **C88, polar list decoding**: `N = 1` is accepted and `compute_depth(0, 0)` is -1, so that the recursion goes above the root (`C88_one_bit`). The
  codeword of `decode_siho_cw` in the plain classes is copied from the root of the tree, where a 1 is `bit_init`, the least integer
  (`C88_codeword`). `set_frozen_bits` calls `fb_assert` on the previous frozen bits before copying the new ones: wrong ones are accepted, longer
  ones are written out of bounds, and after wrong ones even right ones are refused (`C88_set_frozen`). When no path passes the CRC the set of
  active paths is empty and `select_best_path` keeps path 0 instead of the best one (`C88_no_pass`). The metrics start at the least value and are
  normalized on frozen bits only (at information bits the subtraction is applied to copies of the tuples): with `int16_t` a frame without noise of
  values 8000 is decoded wrongly, with `int8_t` one of values 127 when the first bit is of information (`C88_overflow`).
- **C91, LDPC belief propagation**: the flooding decoder counts the checks of a variable in an `unsigned char` vector when it builds its transposition:
  with more than 256 checks two edges share one message, without any exception (`C91_degree`). Integer a posteriori values are added without
  saturation: the 8-bit word of all 31, without error, is decoded as all ones and announced (`C91_wrap`); a check of one variable sends the greatest
  value of the type and any positive LLR then wraps around (`C91_degree_one`). `cur_syndrome_depth` is reset neither by a new frame nor by `reset`: with a
  depth of 2 the same frame decoded twice is announced the second time only (`C91_depth_history`). The returned status is 0, "codeword
  detected", without any check for flooding with one iteration and for the vertical scheduling (`C91_announced`); flooding never checks its last
  iteration (`C91_missed`). `SPA` divides the product by the factor of the variable: with a null LLR it computes 0 / 0, the test `< 1` fails on NaN and the
  message becomes the greatest one (`C91_null_spa`); `LSPA` replaces log 0 by the least positive number, i.e. by about log 1
  (`C91_null_lspa`). In the layered decoders an a posteriori value can absorb a message, so that a frame without errors may leave its codeword after
  the first iteration: `C90_recovery_layered` is stated for the first iteration.
- **C93, BCJR**: with the buffered layout `_load` copies `K` parities only: the LLRs of the parities of the tail are never read by `decode_siho` (`C93_tail_ignored`), and
  its decision may not be the most likely codeword (`C93_buffered_not_ml`); `decode_siso` does read them. With an even feedback polynomial, accepted by the encoder and
  the decoder, both branches into a state carry the same bit and the loops over the rows 1 and 4 of the trellis miss half of the branches: a codeword without noise is decoded to
  another message (`C93_even_feedback`). Metrics are added without saturation on `short` and `signed char` (`C93_overflow_short`, `C93_overflow_char`),
  and branch metrics are halved and floored on `signed char` (`C93_precision_char`). Not modelled: the sockets of `decode_siso_alt` are created by the constructor of
  `Decoder_SISO` with `K + tail_length() / 2` elements, where the virtual `tail_length()` is still that of the base class (0): they announce `K` elements although
  `K + n_ff` are read.
- **C96, turbo codes**: the constructor of `Encoder_turbo` compares `N` with the tails but not the message lengths of its sub-encoders: `encode` may read out of the message
  (`C96_encoder_length`); it does not check that they are buffered (nor `Encoder_turbo_legacy` that they are not), and then rejects its own codewords (`C96_encoder_layout`).
  `is_codeword` has no frame index and uses the permutation of frame 0: with a uniform interleaver it rejects the codewords of the other frames (`C96_is_codeword_frame`).
  `Scaling_factor_constant` and `Scaling_factor_adaptive` convert 0.75 and 0.85 to the LLR type: on integers the factor is 0 and the extrinsic values are erased
  (`C96_constant_scaling`, `C96_adaptive_scaling`, from the third iteration). Scaling by shifts rounds toward minus infinity: 1 becomes 0 and -1 becomes -2
  (`C96_scaling_asymmetric`). `Self_corrected` never resets `previously_corrected_*`: the decisions depend on the frames decoded before (`C96_self_corrected_history`).
  `Flip_and_check` sorts 20 indices even when `K < 20` (`C96_flip_and_check_short`). On `short`, LLRs of 1500 that agree with the null codeword are decoded to another word
  (`C96_wrap`). Also: `siso_i` of the scaling factors skips the scaling at iteration `n_ite - 1` and `n_ite` (`ite < n_ite - 1`, although iterations are counted from 1).
- **C98, fast successive cancellation**: `Decoder_polar_SC_fast_sys::set_frozen_bits` calls `fb_assert` on the bits it already has, not on its argument: more bits than `N` are written
  after the end of the vector (`C98_set_frozen_size`), another number of information bits is accepted, the next decoding writes after the end of `V_K`, and the right bits are then refused
  (`C98_set_frozen_count`). `spc` starts from the maximum of the type with a strict comparison and position -1: inputs that all have this magnitude, with odd parity, make it write before the
  array (`C98_spc_max`; quantized LLRs of `int8_t` reach 127 with 8 bits). `rep` accumulates `int16_t` without saturation: 64 LLRs of 1000 are decoded to the wrong bit (`C98_int16_rep`). On `int8_t` the
  sums of `rep` are exact where those of the naive decoder saturate: the two classes differ even without ties (`C98_int8_saturation`), and differ on ties (`C98_tie`). Sizes under 64 are
  accepted by the constructor, then each decoding throws (`C98_small_size`). Without frozen bits the constructor of the parser converts `log2(0)` to `int` (`C98_empty`). Decoded bits
  are 0 and the sign bit, not 0 and 1 (`C98_representation`; the monitors and encoders compare by truth value). Also: the copy constructor of `Pattern_polar_parser` calls `deep_copy(*this)`.
- **C100, circulation states**: `Encoder_RSC_DB` indexes `circ_states[((K/2) % (n_states-1)) -1]`. When the number of couples is a multiple of 7 (DVB-RCS1) or 15 (DVB-RCS2) the index is -1: the constructor
  accepts these sizes, and every call of `encode` or `is_codeword` reads before the vector (`C100_encode`, `C100_is_codeword`).
- **C102, double-binary turbo encoder**: the sizes of the two component encoders are compared neither with `K` nor with each other: larger ones read after the end of the message and smaller ones give a
  word that the encoder's own `is_codeword` refuses (`C102_component_size`). `get_lut_inv()` is indexed without the frame: with an interleaver that draws one permutation per frame, all frames use
  the first one (`C102_first_frame`); `Decoder_turbo_DB` does the same, so that they agree.
- **C104, turbo product encoder**: the interleaver is not constrained. With a row-column core that reads from the bottom, the columns are encoded from rows that were never written, and messages are lost
  (`C104_read_order`: both messages of a 3 × 3 repetition code give the null word). `info_bits_pos` is never set: it announces the first `K` positions, where the BCH encoders put parity bits
  (`C104_info_bits_pos`). `Decoder_turbo_product::_decode` (not modelled) loops over `n_cols` instead of `n_rows` when it makes the hard decisions of `decode_siho_cw`: non-square products miss rows or ask for
  rows that do not exist.
- **C106, multi-kernel polar codes**: `is_invertible` asks for a nonzero determinant over the integers, but the code works modulo 2: kernels of even determinant are accepted and messages are lost
  (`C106_even_determinant` for all such codes, `C106_singular_kernel_accepted` for a 3 × 3 kernel of determinant 2). The constructors compute the length with `kernel_matrices[s]` before `verif_MK` checks `s`:
  a wrong stage is an out-of-bounds read, never the exception (`C106_stage_ub`). `Encoder_polar_MK` does not compare `N` with `get_codeword_size()` (`C106_length_not_checked`). The systematic encoder checks
  the kernels but not the frozen bits (`C106_not_systematic`). The one-kernel constructor accepts length 1, with no stage, after which `can_be_systematic` reads `stages[0]` (`C106_no_stage_ub`). The number of
  stages `(int)(log(N)/log(size))` is a truncated floating-point quotient (not modelled): when it rounds below the exact integer, as for 3⁵ in double precision, a valid length is rejected.
- **C108, binary files**: when `Source_user_binary` reaches the end of its file inside a frame with automatic reset (the default), `reset()` clears `n_left` although the bits left are already in the frame: they
  are overwritten and the end of the frame is filled with zeros (`C108_auto_reset_loses_bits`). On an empty file it never returns (`C108_empty_file_never_returns`). Frame lengths 1, 2, 3 and 5 overflow the
  output buffer (`C108_short_frames_ub`). `is_done()` turns true only when a read fails, so a file of a whole number of frames gives one more frame of zeros (`C108_extra_frame`). `Sink_user_binary` never writes
  the bits of the last incomplete byte (`C108_sink_tail_lost`) and truncates its file before rejecting `K` < 8 (`C108_sink_truncates_before_check`).
- **C110, extractors**: the second loop of the base `Extractor::_get_sys_and_par_llr` keeps the positions that are in the list of information positions instead of the others, so its parity output holds the
  systematic LLRs (`C110_parity_is_systematic`) and is overflown when K > N - K (`C110_parity_overflow`). The codelet of that task also captures local variables of the constructor by reference
  (`Extractor.hxx:111`), which are dead when it runs (not modelled). `Extractor_polar::set_frozen_bits` checks nothing: more than K unfrozen positions overflow the table (`C110_polar_overflow`), fewer leave
  zeros or positions of the previous set (`C110_polar_too_few`). `Coset_real` on fixed-point LLRs leaves the most negative value negative (`C110_coset_min`). `Extractor_RSC::_add_sys_and_ext_llr` has not the
  signature of the base function and is never called.
- **C112, repeat-accumulate**: `Decoder_RA::_decode_siho` writes `Bw[N - 2]`, out of bounds for `N` = 1 which the constructor accepts (`C112_one_bit`). Its sums are stored in the LLR type without saturation: with
  `Q_8`, an error-free codeword with LLRs of magnitude 100 is decoded into the complement of its message (`C112_overflow`). `Encoder_RA` publishes the positions `k * N / K` as information positions although
  the code is not systematic (`C112_info_bits_pos`).
- **C114, user files**: the constructors of `Source_user`, `Encoder_user` and `Channel_user` do not check that a value was read: with a short file they use an uninitialised variable (`C114_source_short`,
  `C114_noise_short`; `Channel_user` tests `eof()` before the read instead of after it), and garbage instead of the last value is read as 0. A negative start index that is not a multiple of the number of
  frames is kept negative by `%` and `source[-1]` is read (`C114_negative_start`). `Encoder_user` publishes positions outside the codeword and silently ignores a section it cannot read
  (`C114_encoder_positions`).
- **C114, user channels**: `Channel_user_add` with `add_users` overwrites the noise with zeros before adding the users: no noise is ever added (`C114_add_users`). The scalar loop of `Channel_user_bs`
  compares the event, the memory of a `float` read as an integer, with a Boolean: a zero with event `1.0f` is not flipped, whereas the vector loop flips it (`C114_flip_tail`).
- **C114, fast random source**: for `B_64` the scalar loop takes 64 bits from a 32-bit draw: half of these bits are always 0 (`C114_random_64`).
- **C116, weighted bit flipping**: `n_ite` is not checked to be positive: with 0 iterations `_decode` returns success and every word is announced as a codeword (`C116_no_iteration`). The word is
  not checked after the flip of the last iteration: a corrected frame is announced as a failure (`C116_last_flip`). The degrees are stored in `unsigned char`: a check of 256 variables is never
  seen to fail (`C116_wide_check`).
- **C116, probabilistic bit flipping**: with `syndrome_depth > 1`, or without stop criterion, the variables are updated after the check whose result is returned: a word that is not a codeword is
  announced (`C116_depth`, `C116_no_syndrome`), and a codeword reached by the last update is not (`C116_last_update`). Input values other than 0 and 1 index the distributions out of range
  (`C116_not_bits`).
- **C118, Gallager E on `int64_t`**: `tools::div2` has specialisations for `int8_t`, `int16_t` and `int32_t` only; the generic one multiplies by `(B)0.5`, which is 0 for `int64_t`. All the votes are 0: a
  codeword without error is replaced by the null word, announced as detected (`C118_wide`).
- **C118, Gallager A, B, E**: without the syndrome criterion or with one iteration every output is announced as a codeword (`C118_unchecked`); the word after the last iteration is not checked
  (`C118_last`); with a depth larger than 1 `cur_syndrome_depth` is kept from a frame to the next, so that the same frame is announced differently the second time (`C118_depth`).
- **C118, Gallager B**: the message of a variable to a check counts the message of this check among those that agree with the received bit: it is not extrinsic (`C118_intrinsic`).
- **C120, AList**: a matrix without connections is written with a maximum degree of 0, that all the readers refuse (`C120_empty_unreadable`); the lists of the columns are never read, so that a file cut before
  them or contradicting the rows is accepted (`C120_columns_ignored`; the verification is commented out).
- **C120, `AList::read_format3`**: the line of the `n_cols` degrees is required to have `n_rows` words. With fewer rows than columns the loop reads past the end of the vector (`C120_format3_ub`, a file of two
  short lines), with more rows than columns a valid file is refused (`C120_format3_refused`).
- **C122, `Frozenbits_generator`**: the constructors check neither `K <= N` (then `generate` reads past the end, `C122_too_many`) nor that `N` is a power of two (out-of-bounds accesses in the BEC and
  Gaussian-approximation generators, `C122_length`).
- **C122, channels files**: a truncated file is accepted, the missing channels are those of the previous generation (`C122_truncated`); repeated channels give fewer than `K` information bits and a channel that
  is too large an out-of-bounds write (`C122_file`); the 5G generator overflows its vector before it tests the number of channels (`C122_5G_ub`).
- **C124, `Dumper`**: `register_data` takes a threshold per area but keeps only the last one (`C124_threshold`); areas with different numbers of frames lose their correspondence (`C124_alignment`); areas of
  the same extension overwrite each other (`C124_extension`); files that cannot be opened are ignored silently (`C124_not_opened`); the size in bytes is a product of two `unsigned` that wraps around (`C124_large`).
- **C124, `Channel_user::read_as_binary`**: `length / (n_fra * fra_size)` divides by 0 when the product wraps around to 0, before the size is compared with `N` (`C124_binary_header`); a binary file of 3678257
  frames of 8 values starts with the text `1 8` and is read as text, with an uninitialised variable (`C124_binary_as_text`).
- **C126, `CRC_polynomial_inter`**: `_build` and `_extract` work on frames stored one after the other while `_check` expects them interleaved, so that `check` refuses what `build` outputs (`C126_layout`) and
  accepts frames none of which has a correct CRC (`C126_accepts_errors`); elements other than 0 and 1 are not taken as ones (`C126_values`); `_check_packed` throws. The copy at the end of `_generate_INTER`
  copies a range onto itself when called from `_check`, which `std::copy` does not allow.
- **C128, `Channel_Rayleigh_LLR_user::read_gains`**: the loop tests `eof` before reading: when an end of line follows the last number, this number is stored twice (`C128_last_twice`) and the gains of the second
  turn are shifted (`C128_wrong_gain`); with an empty file an uninitialised variable is stored (`C128_empty`) and the check that the file is not empty never triggers; with a token that is not a number the loop never
  ends and fills the memory (`C128_garbage`).
- **C130, `Histogram::dump_all_values`**: without `cumul_vals` (the default, used by `Simulation_BFER` for the histogram of errors) the counter is not reset after the last value inside of the range, so that the line of
  the right border has the sum of both counts (`C130_last_line`): with frames of 1, 1, 1 and 2 errors the file reports four frames with two errors (`C130_errors`). When no value is strictly inside of the range,
  the left border is not written and its count goes to the right border (`C130_borders`). A histogram with a single value is not dumped (`C130_single`).
- **C132, `Reducer`, `Initializer`**: `Reducer::_reduce` casts the accumulated value to the input type at each step, so that a wider output type does not help: 100 + 100 + 100 on bytes gives 44 in 32 bits
  (`C132_narrow`). `Initializer::set_init_data` for each frame throws at the first wrong size after having changed the previous frames (`C132_not_atomic`).
- **C134, `PRNG_MT19937_simd`**: `(float)INT32_MAX + 1.0f` is 2^31, so `randf_co` and `randf_oo` return 1 for -2^31 and for all the numbers that are rounded to ±2^31 (`C134_one`); Gaussian noise
  is then null, not infinite (`C133_logarithm`). `randf_cc() <= p` is true for the number 0 whatever the positive probability, so events are never rarer than 2^-32 (`C134_rare`).
- **C136, `Gaussian_noise_generator_fast`**: a misaligned buffer is refused, and the channels pass `noised_data.data() + frame_id * N`, of a `std::vector`, whatever `N`: when MIPP requires the alignment
  of a register, the second frame is refused for every `N` that is not a multiple of the register (`C136_frames`). `Event_generator_fast` uses aligned stores at such addresses without the check (not modelled).
- **C138, `trapz_integral`, `linear_interpolation`**: the vector loop of `trapz_integral` starts at 1 and the scalar one at the last multiple of the register, which the vector loop has already counted: one ordinate too many
  for every number of points that fills a register (`C138_trapz`; the function is exported, not called in the library). `linear_interpolation` compares `*x_above` before testing that it is not the end: for a value greater than all
  the abscissae it reads past the array (`C138_after_last`), which the generators of noise from a user distribution do when the last cumulated probability is rounded below the value drawn.
- **C141** `mutual_unique` (`include/Tools/general_utils.hxx:79-100`) resizes the vectors to `r`, the index of the last point kept, instead of `r + 1`: when
  no abscissa is repeated, the last point is removed (`C141_last_point_lost`). No caller in the repository.
