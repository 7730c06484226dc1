# Design: a Lean 4 model of basic_dsp

## 1. Trusted base

* Lean 4.33.0's kernel. No axioms of our own; every theorem depends at most on
  `propext`, `Classical.choice` and `Quot.sound`. No `native_decide`, no `bv_decide`.
* The faithfulness of the hand written model in `lean/Verif/Model/*` to the Rust source. Every
  definition of the model cites the file and lines it models and names its simplifications.
* Not modelled (trusted or out of scope):
  * `rustfft`, `crossbeam`, `num_traits`, the operating system, the allocator, `usize` overflow
    (usize is `Nat`; underflow and division by zero *are* modelled as panics),
  * floating point rounding. Code which only moves data or applies an operation per element is
    modelled for an arbitrary number type with arbitrary operations, thus the theorems hold bit for
    bit for `f32`/`f64`. Algebraic facts (sums, inverses, FFT) are proved over commutative
    rings, fields or linear orders: "exact arithmetic". C73, C84, C87, C94, C95, C96, C97 and C98 bound the rounding errors
    of sums, dot products, convolutions, linear interpolation, the elementary operations, windows, magnitudes, transforms and correlations
    in the standard model of floating point arithmetic, C74 says which results are reproducible bit for bit;
    C90 covers infinities and NaN in sums, dot products, statistics and element-wise operations; overflow, underflow and signed zeros have no
    model of their own,
  * OpenCL devices, drivers and clFFT (the kernels and the host code of the convolution are modelled, C85; the kernel text is assumed to
    be compiled although `.src_file(kernel_src)` expects a path); `avx512.rs` (it can not be compiled: `_mm512_addsub_ps`, `_mm512_hadd_ps` do not exist, `f64x8::new` is
    called with four numbers); of the `interop` C facade: the layout of structs, the behaviour of a panic which reaches C, `facade64.rs` (the
    same text as `facade32.rs` up to the number type).

## 2. Modelling conventions

* `&[T]` is `List T`. A modelled function which can panic returns `Option`; `none` = panic.
  `Result<(), ErrorReason>` is `Except ErrorReason Unit` (`VoidResult`).
* A vector is `DspVec T`: storage (kind + *all* cells, also those beyond `valid_len`), delta
  (`none` = NaN), domain, number space, valid length. Stale cells are part of the state, so a
  theorem that quantifies over all vectors quantifies over all stale contents.
* Buffers (`SingleBuffer`, `NoBuffer`, `FixedLenBuffer`) are part of the state with stale content.
* Threads: a worker is a sequential program over its own chunk; an execution is an arbitrary
  interleaving of the element steps of all workers (`List` of worker numbers). Reductions collect
  the results in an arbitrary completion order (a permutation).
* SIMD: a register is a block of `w` consecutive elements; an address is a natural number, alignment
  its remainder.
* FFT: the transform is a parameter; what is modelled is what the library does around it.

Layout: `Verif/Model` (model), `Verif/Spec` (small independent specifications used in statements),
`Verif/Lemmas` (helpers), `Verif/Props` (the property theorems with non-vacuity examples).

## 3. Property plan

| id | modelled | proof |
|----|----------|-------|
| C01 | all state changing operations as an `Op` type, `run : history → state` | invariant by induction over histories; where the code breaks it (rededicate, FixedLenBuffer, InlineVector), counterexample + restricted theorem |
| C02 | `resize` on all storage kinds | case analysis |
| C03 | all constructors | case analysis; counterexamples for `&[T]` and `From<S>` |
| C04 | interleave, get/set real/imag | induction over lists |
| C05, C06 | `reverse_array`, `swap_array_halves` incl. the in-place cycle | list extensionality; cycle invariant with `gcd(n/2, n) = 1` for odd n |
| C07, C08, C09 | zero_pad, zero_pad_b, zero_interleave, zero_interleave_b | list algebra, loop invariants; counterexamples for zero_pad_b; `C08_zero_pad_b_iff`: exactly when it agrees with zero_pad, `C08_center_exact`: what it computes with any stale buffer, and when it panics |
| C10 | split_into, merge | loop invariants; counterexample for larger storages; for real vectors the exact condition on the storages (`SplitFits`, `MergeFits`) under which the calls work, otherwise they panic |
| C11 | diff, diff_with_start, cum_sum | loop invariants over a commutative group |
| C12-C15 | chunk size, `chunks`, range partition, number of chunks, interleaving semantics | arithmetic, invariant over schedules, permutations |
| C16, C17 | window functions and symmetric pairing; specification `symmetricIndex` of the point whose window value is used | counterexamples, restricted theorem, field algebra; `C16_exact`/`C16_iff`: what the symmetric path computes for every number of points and workers, and exactly when that is the property |
| C18-C21 | SIMD partition, edges iterator, elementwise/reduction paths | list algebra over all alignments; counterexamples to C19 |
| C22, C23 | binary operations | case analysis |
| C24-C28 | statistics, merge, split, map_aggregate, Kahan | loop invariants over a linear order/ring; `C25_merge_iff`: exactly when merged statistics describe the whole |
| C29-C31 | to_complex, to_real, magnitude ..., conj, complex exponential | loop invariants |
| C32 | state machine of the run-time type checks | case analysis |
| C33 | wrap, unwrap (every sequence and divisor; round trip where it holds); both are also statements of the programs of C72 and methods of the matrices of C77 | induction over an ordered field; `C33_restores_iff`: exact condition for the round trip |
| C34, C35 | fft/ifft around a kernel | rotation lemmas, `ZMod.dft` instance |
| C36 | mirror | list algebra |
| C37-C39 | convolution and wrapping iterators | modular arithmetic, sums; `C37_frequency_exact`/`C37_frequency_iff`: the overlap-discard path for all lengths |
| C40 | bit smearing | bit level reasoning over all bit widths |
| C41, C42 | decimatei, interpolate_lin | loop invariants |
| C43 | buffered operations on all buffers | case analysis |
| C44 | InlineVector | refinement to a bounded list |
| C45 | every register type (fallback, SSE, AVX) with its lane-wise operations | lane by lane algebra over a commutative ring |
| C46 | get_mag_phase, set_mag_phase over abstract polar functions | loop invariants |
| C47 | element-wise functions on workers and SIMD blocks | schedule independence (C13) and tiling (C18) |
| C48 | delta in fft/ifft | counterexamples over exact arithmetic |
| C49 | sfft, sifft, plain versions, unmirror, mirror around a kernel | list algebra, kernel properties; instance with the real DFT over ℂ |
| C50 | interpolate_hermite with its three loops | loop invariants, cubic identity over a field; with delays: positions and integer parts, `C50_delay_panics` says that the admitted delays are exactly those below one step of the output |
| C51 | all modelled operations | proved panics (counterexamples); positive: totality theorem over histories |
| C52 | all modelled operations | proved influences (counterexamples); positive: refinement theorem over histories |
| C53 | all modelled operations on one vector as `VecOp`, executed by `exec`; the abstract signal and the meaning of calls in `Spec/Signal.lean`, accepted environments in `Spec/Safe.lean` | simulation: each operation refines its meaning (from the theorems of C02-C36), induction over histories; C43, C51 and C52 follow for these environments |
| C54 | `prepare_argument`, `prepare_argument_padded`, `correlate` on top of the models of `zero_pad_b`, `plain_fft`, `conj`, `mul`, `plain_ifft`, `scale`, `swap_halves`; the transform satisfies `FftKernel.Correlates`, proved for the DFT over the reals in `Props/DftCorr.lean` | composition of the theorems of the single operations in terms of signals; index arithmetic modulo 2n-1 |
| C55 | `convolve` with real and complex functions: the selection of the implementation, `convolve_function_priv` (scalar loop over the wrapping iterator), the filled impulse response and `convolve_signal` of C37 and C38 (Model/ConvFunction.lean); specification `convolveWith` | the loop is a sum over the window (induction), reflection of the index; the special path by C37/C38 with the sampled response; where the code differs the difference is proved |
| C56 | `multiply_frequency_response` and `multiply_function_priv` with both paths: the closure on pairs of chunks (catching up loops, common loop, rest loops) and `fft_swap_x` (Model/FreqResponse.lean); specification `filtered` on the axis `spectrumAxis` | each pair of chunks is shown to multiply each of its cells exactly once with the value of the cell or its mirror image (counting argument), then the schedule independence of disjoint cell programs; `C56_exact`/`C56_iff` describe the result without any condition on points and workers (`filteredWhere`) |
| C57 | `interpolate`, `interpft` with `apply_linear_phase`, `interpolate_upsample`, `interpolate_downsample`, the conversion of real vectors and the buffers (Model/Interpolate.lean); specification: `resampledSpectrum`, `phaseShifted`, `binFiltered` (Spec/Interpolate.lean) | step lemmas for vectors on complex slices (`OnSlice`), exact description for every delay and response (`interpolate_used`), then arithmetic of the axes; `C57_delay_iff`, `C57_response_iff` and `C58_iff` are the exact conditions; the DFT properties `Stretches`, `Moves` are proved for the discrete Fourier transform |
| C58 | `interpolatei` (Model/Interpolate.lean), `decimatei` (C41); specification `interpolatedBy`, `NyquistResponse` | exact description (`interpolatei_used`); aliasing (`Folds`) and images (`Repeats`) of the discrete Fourier transform by sums over residue classes |
| C59 | `interpolatef` with both implementations (Model/Interpolatef.lean, with the shifted copies and registers of C38 and the iterators of C39); specification `windowSum`, `interpolateWith`, `Interpolates` | exact description of both implementations (`C59_scalar`, `interpolatef_simd`: registers as encoded blocks of points); windows of the periodic continuation as sums over intervals |
| C60 | the matrix crate: loops over the rows (`for`, `transform` of `Vec` and of arrays), the shared buffer, per row environments (Model/Matrix.lean); specification: one signal per row (`Mat.Shows`, Spec/Matrix.lean) | induction over the rows with the relation `Serves` between the buffers; composition with the refinement C53 |
| C61 | `?` loops, `transform_res` of both kinds, resize, elementary operations, setters, to_complex, sfft of matrices | induction over the rows; counterexamples |
| C62 | sums, dot products, statistics, getters of matrices | induction over the rows, theorems of C24-C28, C30, C46 |
| C63 | construction and meta data of matrices | agreement of the rows (`Signal.Agree`) as an invariant of histories |
| C64 | `convolve_mat` and the macro `convolve_signal` of matrices, with the borrowed buffer and the `InlineVector`s (Model/MatrixConv.lean); specification `mixedConv` (Spec/MatrixConv.lean) | induction over the responses: part n of the buffer is output n; the rows are only written afterwards; C39 for the iterators |
| C65 | lookup tables of conv_types.rs: `from_conv_function`, `from_raw_parts`, `calc`, `linear_interpolation_between_bins` (Model/LookupTable.lean) over an ordered field with floor | case analysis of the rounding; induction over the filling loop; the accuracy from the Lipschitz bound at the nearer neighbour |
| C66 | `to_complex`, `to_real`, `fft`, `ifft` of the tables through the modelled vectors (InlineVector storage, fixed length buffers); specification `fourierAt` (Spec/LookupTable.lean) | C29, C30, C34 for the vectors; over ℂ with the discrete Fourier transform re-indexing of the sum |
| C67 | `SincFunction`, `RaisedCosineFunction` in both domains (Model/LookupTable.lean), over ℝ with Mathlib's pi, sin, cos | closed forms with `Real.sinc`; the transform pair by integrating cosines |
| C68 | the C facade: all exported functions of facade32.rs as data (Model/InteropTable.lean, generated from the source), `convert_vec`, `trans_vec`, `convert_scalar`, `convert_void`, the codes (Model/Interop.lean), over an arbitrary library `Lib`; documented codes in Spec/Interop.lean | case analysis; counterexamples for undocumented codes and `convert_void` |
| C69 | names (as words), arguments and called method of every exported function, translation of codes and callbacks (Model/InteropArgs.lean); specification `NameOf`, `ArgsMatch` | case analysis over all functions; counterexamples for `atan`, negative factors, missing `#[no_mangle]` |
| C70 | heap with addresses, boxes, signatures (by value, by reference), C programs as statements, allocator as a parameter (Model/Interop.lean); specification: a program whose variables hold vectors (Spec/Interop.lean) | simulation by induction over programs |
| C71 | creation and access functions of the facade | list algebra, C02, C03; counterexample for `overwrite_data` |
| C72 | programs with several vectors, Model/Program.lean; meaning in Spec/Program.lean, environments in Spec/ProgramSafe.lean | one step lemma per statement from the single-function theorems (Props/ProgramUn, ProgramBin, Program), then induction on the program |
| C73 | the functions of C21 and C28 over numbers whose operations are rounded (Spec/Rounding.lean: `SumOf`, `Rounding`, `Fl`) | the result is a tree of additions without any law (Props/Rounding.lean, RoundingComplex.lean); induction over the tree gives the error; compensated summation: invariant for sum and correction |
| C74 | the functions of C20, C21, C28, C25 and C47 over an arithmetic without any laws (commutativity for complex products) | the element-wise theorems do not use laws, thus both results equal the same list (`Replaced.unique`); sums with one worker are the same term; counterexamples in small arithmetics (Props/Bitwise.lean) |
| C75 | `data`, `data_mut`, `datac`, `datac_mut` with numbers and ranges, Model/Index.lean; a caller of a `mut` method is a function on lists | list algebra; reading and writing are characterised by position (Props/Index.lean) |
| C76 | multicore_support/no_threading.rs, Model/NoThreading.lean | equal to the threaded executors with one core by unfolding, then C13 and C14 for all settings |
| C77 | methods of matrices for `UnOp`, `BinOp` and the symmetric transforms, Model/MatrixOps.lean: which loop, which method of the vectors, the buffer handed on | induction over the rows; invariant: the buffer serves as well as at the start (Lemmas/MatrixBuffers.lean); one row is `unary_step`, `binary_step` of C72 |
| C78 | the calibration, Model/Calibration.lean: clock and `linreg` are parameters | case analysis; linear machines (Spec/Calibration.lean): arithmetic of crossing lines and rounding |
| C79 | the SIMD approximations, Model/Approximations.lean: bit layout of the float formats, polynomials with the constants of the code, octant selection; over ℝ in exact arithmetic | error bounds: Taylor bounds of Mathlib (`exp_bound`, `sin`/`cos`, pi), polynomial bounds by exact rational evaluation in the kernel (Lemmas/PolyBounds.lean), monotonicity by derivative for ln |
| C80 | `getf`, `get`, `into`, constructors for complex numbers, Model/Extract.lean; a `Vec` has a spare capacity and remembers the size of its memory | prefix arguments on interleaved lists |
| C81 | the library behind the facade is the modelled library (Model/Facade.lean: `modelLib`, one entry per exported method), every call in its own environment; the meaning of C programs in terms of signals is Spec/Facade.lean | composition of C70, C68, C71 and C72 by induction over the program |
| C82 | statistics over arbitrary operations (no laws) and over `Fl R`, numbers with rounded operations (Spec/Rounding.lean; conversions of counts are rounded, comparisons are exact); the `f32` versions of the precise statistics | loop invariants without laws; depth of additions (C73), Kahan bound (C73), propagation of relative errors through division and square root; counterexample for every number of binary digits |
| C83 | programs of C72 over the real numbers with an FFT library which computes the discrete Fourier transform (`FftKernel.IsDft`, the formula with `exp`; `dft_isDft`: the transform of this model does) | `C72_program` reduces each law to signals, in which it is proved with sums of roots of unity (Lemmas/DftLaws.lean); laws are stated as equality of the results of two programs (`SameResult`), as the vector a program leaves (`Leaves`) or the values it returns (`Returns`), each for all environments and schedules |
| C84 | `convolve_signal` over `Fl R` (the model of Model/Conv.lean needs no laws), the scalar and the SIMD implementation; overlap-discard with an FFT library of accuracy e (Props/ConvFftRounding.lean) | `convolveSimd_form`/`RegEnc.conv_form` describe without any law which products are accumulated in which lane; they are a `SumOf` of bounded depth (products with the zeros of the padding included, which are exactly zero), to which the error analysis of C73 applies; overlap-discard: `overlapDiscard_spec` holds for any acceptance predicate of the points, a block is accepted by error propagation in the Euclidean norm (`convolve_block`) and compared with the exact block of C37 |
| C85 | `gpu_support/ocl/mod.rs` (host part: preparation of the response, lengths, copies), the OpenCL kernels as functions per work item, a GPU as the execution of the work items in any order on a result buffer with arbitrary contents; `convolve_signal` with `use_gpu`; `is_supported_fft_len` | each work item writes its own register only, so the final buffer does not depend on the order (`gpuRun_spec`); the sum of a work item is rearranged into `convAt` (`kernelSum`, `phase_eq`); the margins follow from the ranges of `convolve_vector_range`. Violations are proved for every vector. Complex f32: `C85_convolve_complex32_exact` says what is computed instead, point by point (real parts of the convolution with every second point negated) |
| C86 | nothing new: programs of C72 | the periodic continuation of a list as a function on the whole numbers (`per`); the convolution as a sum over the response (`per_conv`); exchange of sums, and sums over a period do not depend on its start or direction (`sum_period`, `sum_period_neg`); C72 carries the laws of the lists to programs |
| C87 | nothing new: the models of the elementary operations, `square`, `magnitude_squared`, `diff` and `cum_sum` need no laws of the arithmetic and are used with the rounded numbers `Fl R` | which operations are applied to a number is C74/C23/C11 without laws; a product of complex numbers from the errors of its parts (`product_error`, Cauchy-Schwarz), the quotient by a triangle inequality over numerator, norm and final rounding (`cx_div_error`); `cum_sum` is a `SumOf` of depth `i`, to which C73 applies |
| C88 | nothing new: programs of C72 | the signals continued with zeros as functions on the whole numbers (`ext0`), the correlation as a finite sum over them (`corrAt`); shifts of the summation index; Cauchy-Schwarz for the bound, and the inequality of the means with the support being bounded for the strict maximum (`autocorrelation_peak`); C54's list lemma `rotated_correlation` carries the laws to the programs |
| C89 | nothing new: programs of C72, which have statistics, statistics_split and map_aggregate as statements | the statistics of a list (`summary`, Spec/Stats.lean: sum, count, first smallest and largest element), to which C24, C25, C26, C27 reduce the model (Props/ProgramStat.lean); then facts about sums: variance identity, Cauchy-Schwarz and Minkowski, first extremes under monotone maps and permutations, sums over residue classes |
| C90 | numbers with infinities and NaN (`Wide`, Spec/Special.lean) with the IEEE rules for special values and otherwise exact arithmetic; the functions of the model are the ones of C11, C20, C21, C24, C28, applied to this type | these numbers form a commutative monoid under addition, which is all that the theorems about sums, dot products and cumulative sums need; minimum and maximum and the compensated sums by induction over the data; complex vectors in Spec/SpecialComplex.lean and Props/SpecialComplex.lean, with the `hypot` of IEEE 754 as norm |
| C91 | waves (finite sums of oscillations) and their points, Spec/BandLimited.lean; the functions of the model are the ones of C34, C57, C58 | the transform of the points of a wave are its amplitudes at the bins (Lemmas/BandLimited.lean, from the inversion of the DFT); phases, resampling and responses act on amplitudes; then C57_exact, C57_delay_iff and C58 |
| C92 | `Restores` (Spec/RoundTrips.lean): a program ends with the numbers, number space, domain and sampling distance with which it started; which variables a call writes | from the refinement of programs (C72) it is enough to show the round trip for the meanings of the calls, lists of real or complex numbers; interpft from C91 |
| C93 | the convolution in time domain (C37, C38) applied to numbers with infinities and NaN; which positions share a register (Spec/SpecialConv.lean) | the law free form of the values computed with registers (`convolveSimd_form`), which now also says that the window consists of whole registers; sums of special values as in C90 |
| C94 | the running product of the complex exponential, windows (Model/WindowFunctions.lean for every kind of numbers), absolute values and magnitudes in registers with rounded numbers; the library as a parameter with an error | law free form of the values (`expLoop_get`, `multiplyWindow_bitwise`, `simdComplexToReal_split`), then error propagation by induction; a library with a given error for which the growth of the error is exact (`C94_exponential_drift`) |
| C95 | fft, ifft and a product of spectra (Model/Fft.lean, Model/Elementary.lean) with rounded numbers; the FFT library as a parameter with a relative error in the Euclidean norm | Parseval and the inverse of the exact transform (Lemmas/DftLaws), law free form of ifft (`ifft_bits`), error propagation by the triangle inequality in the Euclidean norm; a library for which the bound is reached (`C95_fft_reached`) |
| C96 | `prepare_argument_padded`, `correlate` and `conj` (Model/Correlation.lean, Model/ComplexReal.lean) with rounded numbers | law free descriptions of the calls (`conj_bits`, `correlate_bits`); the cross correlation theorem of the exact transform (DftCorr); error propagation as for C84 (`spectra_block`) |
| C97 | `windowed_fft` and `windowed_ifft` (Model/Fft.lean) with rounded numbers | the bit for bit form of a window (`window_bitwise`), C95 for the transforms, error propagation per point and in the Euclidean norm; the factors of the window and of its inverse cancel although they are inaccurate |
| C98 | `interpolate_lin` with rounded numbers (Model/InterpRounding.lean: the counter as a float, the length and the positions rounded) | the polygon is Lipschitz with the largest step, so the rounded position costs its error times D; error propagation for the four roundings of the value; violations in `ieeeRounding` (ties to even) |
| C99 | whole programs with `interpolate_lin`, `interpolate_hermite`, `decimatei`, `scale`, `offset`, `add`, `sub` (Spec/InterpLaws.lean) | C72 reduces programs to the interpolated lists; affine maps and sums pass through lines and cubics (also through the continued points at the borders); index arithmetic for two factors and for reversed signals; the cubic as a mean with weights, at most 1/8 of them negative |

Properties which the code violates are kept in their full form in `properties.jsonl`; for these the
development proves a concrete violation (`..._violated`) and the strongest true theorem found
(`..._partial`). Preconditions which are part of a statement (non-empty data, aligned data) are
spelled out in the English statement, and the behaviour outside of them is the subject of C19, C51
and C52. The list of violations is in section 4.

## 4. Violations found in the code

Each is a theorem about the model with a concrete, well-formed witness.

| property | theorem | what happens | source |
|----------|---------|--------------|--------|
| C01 | `C01_rededicate_violated` | `rededicate_from` tests parity with `&&`: a complex vector with odd length | rededicate_and_relations.rs |
| C01 | `C01_to_complex_violated`, `C01_to_complex_error_violated` | failing `to_complex` leaves a complex vector of odd length | real_to_complex.rs |
| C01, C43 | `C01_fixed_buffer_violated`, `C43_fixed_buffer_violated` | a `FixedLenBuffer` that is too short truncates the data silently | support_core.rs |
| C01, C49 | `C01_plain_sifft_violated`, `C49_generic_violated` | `plain_sifft` of a generic vector keeps `is_complex` with odd length | freq_to_time.rs |
| C01, C02, C44 | `C01_inline_violated`, `C02_inline_violated`, `C44_try_resize_violated` | inline storage: `try_resize` reports success without growing | inline_vector |
| C03 | `C03_gen_slice_violated`, `C03_from_violated` | no parity check in `&[T].to_gen_dsp_vec` and `From<S>` | support_core.rs, to_from_vec_conversions.rs |
| C08 | `C08_center_violated`, `C08_center_panic_violated`, `C08_surround_violated` | `zero_pad_b`: Center leaks stale buffer content or panics; Surround differs from `zero_pad` | data_reorganization.rs |
| C10, C52 | `C10_split_violated`, `C10_merge_violated` | `split_into`/`merge` of real vectors iterate over the whole storage | data_reorganization.rs |
| C16 | `C16_two_workers_violated`, `C16_four_workers_violated`, `C16_empty_violated`, `C16_one_point_violated` | pairing of chunks in `execute_sym_pairs_with_range` | threading.rs |
| C19 | `C19_unaligned_panics_violated`, `C19_complex_cut_violated`, `C19_avx512_panics_violated` | `calc_data_alignment_reqs` computes a wrong prefix for addresses that are not register aligned | simd_extensions/mod.rs |
| C25 | `C25_min_missed_violated` | `else if` in `Statistics::merge` | statistics.rs |
| C27, C52 | `C27_map_inplace_violated`, `C27_stale_cells_violated` | `map_inplace`, `map_aggregate` run over the whole storage | mapping.rs |
| C30 | `C30_destination_violated`, `C30_get_magnitude_storage_violated`, `C30_avx_f64_violated` | `get_magnitude` etc. use the whole storage; resize the destination to the wrong length first | complex_to_real.rs |
| C31 | `C31_offset_violated` | `multiply_complex_exponential` multiplies `b` by delta | complex_ops.rs |
| C32 | `C32_setter_violated`, `C32_window_violated`, `C32_mirror_violated` | missing checks of number space or domain | complex_to_real.rs, time.rs, freq.rs |
| C33 | `C33_constant_violated` | `unwrap` after a zero step | real_ops.rs |
| C35 | `C35_plain_ifft_violated` | `plain_ifft` reports the frequency domain | freq_to_time.rs |
| C37 | `C37_convolve_signal_violated` | overlap-discard leaves input samples unconvolved | convolution.rs, time_freq/mod.rs |
| C45 | `C45_avx_f64_norm_violated`, `C45_avx_f64_norm_wrong_violated` | lanes exchanged in the half store of AVX `f64x4` | avx.rs |
| C48 | `C48_hertz_violated`, `C48_round_trip_violated` | delta is multiplied by the number of points | time_freq/mod.rs |
| C49 | `C49_generic_violated`, `C49_sifft_violated`, `C49_sifft_generic_violated` | symmetric transforms | time_to_freq.rs, freq_to_time.rs |
| C51 | `C51_*_violated`, `C23_empty_operand_panics`, `C41_factor_zero_panics`, `C42_delay_panics`, `C50_delay_panics`, `C50_short_panics`, `C50_fraction_panics` | panics on empty/one point vectors, shorter operands, factors and delays | several |
| C52 | `C52_*_violated` | odd number of storage cells of complex vectors panics | vector_types/mod.rs:array_to_complex |
| C54 | `C54_unpadded_violated`, `C54_one_point_violated` | unpadded arguments of the same length are rejected; panics for one point | correlation.rs |
| C55 | `C55_real_vector_violated`, `C55_ratio_violated`, `C55_complex_response_violated` | special implementation: real signals are delayed, function evaluated in the distance 1/ratio, complex functions panic (always for ratios near one, for very large ratios unless the number of points is a multiple of three) | convolution.rs:136-254 |
| C56 | `C56_few_points_violated`, `C56_one_point_violated` | symmetric response: with fewer chunks than twice the workers the points in the middle are not multiplied; one point panics | threading.rs:545-612 |
| C57 | `C57_delay_odd_violated`, `C57_response_odd_violated`, `C57_response_even_violated`, `C57_real_round_trip_violated`, `C57_empty_violated` | the bin in the middle of an odd number of bins gets a negative frequency for the delay; the axis of the response is wrong by one bin for odd N (symmetric) or even N (not symmetric); the highest frequency of an even number of points is only kept on the negative side; empty real vectors panic | interpolation.rs:319-376, time_freq/mod.rs (`fft_swap_x`) |
| C58 | `C58_response_odd_violated` | the axis of a symmetric response is wrong by one bin for an odd number of points | time_freq/mod.rs (`fft_swap_x`) |
| C59 | `C59_delay_violated`, `C59_short_violated`, `C59_asymmetric_violated`, `C59_odd_points_violated` | with registers the middle of the signal is delayed into the wrong direction; too few points panic; functions which are not even are mirrored; odd real results get one more point | time_freq/interpolation.rs |
| C60 | `C60_diff_with_start_violated`, `C60_cum_sum_violated` | `diff_with_start` and `cum_sum` of a matrix call `diff` | matrix/src/general/elementary.rs:214-224 |
| C61 | `C61_fewer_rows_violated`, `C61_error_order_violated`, `C61_to_complex_error_order_violated` | zip stops at the shorter matrix and reports success; `transform_res` keeps the last error for arrays and the first row's error for `Vec` | matrix/src/general/elementary.rs, matrix/src/lib.rs |
| C62 | `C62_getters_violated`, `C62_get_magnitude_squared_violated`, `C62_sums_array_violated` | getters call `get_imag`; sums with arrays of 3 and 4 entries are implemented for `Matrix2xN` | matrix/src/complex.rs, matrix/src/general/statistics.rs |
| C63 | `C63_row_len_violated`, `C63_no_rows_violated` | only the first row is looked at; `get_meta_data` panics without rows | matrix/src/mat_impl.rs |
| C64 | `C64_complex_violated`, `C64_many_rows_violated`, `C64_missing_responses_violated`, `C64_long_response_violated`, `C64_domain_violated` | complex data is cut at the length of the response; more than 64 rows panic; rows without responses get stale buffer contents; longer responses and frequency domain are accepted | time_freq/mod.rs:365-453, matrix/src/time_freq.rs:439-467 |
| C65 | `C65_range_violated`, `C65_symmetry_violated` | before its range a table gives its first value for ever (the cast of a negative number to usize saturates at 0), behind its range zero; tables of symmetric functions are not symmetric |
| C66 | `C66_phase_violated`, `C66_delta_violated`, `C66_scratch_violated`, `C66_empty_violated` | the transform of a table is that of the function shifted by half the table (no ifft_shift before the fft); fft and ifft multiply delta by n each; the scratch buffer has only n complex numbers; an empty real table panics |
| C68 | `C68_undocumented_violated`, `C68_getters_violated`, `C68_split_into_violated` | codes 13 and 14 are not documented; `convert_void` maps success to 9 (= VectorMustHaveAnOddLength), so that get_real, get_imag, ..., split_into never report success |
| C69 | `C69_atan_violated`, `C69_negative_factor_violated`, `C69_link_violated` | atan32/atan64 call tan; a negative factor becomes at least 2^31; fft_shift32 and ifft_shift32 lack `#[no_mangle]` |
| C70 | `C70_clone_violated`, `C70_getters_violated`, `C70_sub_violated` | clone32 and the get_ functions take the source by value and free it; sub32 wants the address of a handle where all others want the handle |
| C71 | `C71_overwrite_violated` | overwrite_data32 requires strictly fewer numbers than the vector has |
| C74 | `C74_abs_violated`, `C74_magnitude_violated`, `C74_sum_violated` | registers compute sqrt(x*x) and sqrt(re*re+im*im) (overflow, underflow), the edges abs and hypot; sums depend on register type and address | real_ops.rs:243-251, complex_to_real.rs:417-431, statistics.rs:439-466 |
| C75 | `C75_not_complex_violated` | `datac` of a generic vector with real numbers gives pairs of numbers (or panics) instead of an empty array | vec_impl_and_indexers.rs:476-622 |
| C77 | `C77_windowed_sfft_violated`, `C77_sifft_violated` | matrices inherit the defects of `windowed_sfft`, `sifft`, `windowed_sifft`; one bad row makes the whole call fail although all rows have been converted | matrix/src/time_freq.rs:99-106, 154-167 |
| C78 | `C78_never_pays_violated` | the absolute value of the crossing is used: if two threads are slower for every size, the calibration succeeds and medium operations on 10000 elements use threads | vector/src/multicore_support/threading.rs:71-73 |
| C79 | `C79_ln_violated` | `sqrthf` is `2.0.sqrt()`, the algorithm needs sqrt(1/2): between 1.95 and 2 the error of `ln_approx` exceeds 1 percent | vector/src/simd_extensions/approximations.rs:75,102 |
| C79 | `C79_powf_negative_violated`, `C79_powf_violated` | `powf_approx` is exp(ln(x) y): not a number for negative numbers, although documented for -0.1 to 0.1; more than 1 percent off at 63/1024 squared | vector/src/vector_types/real/real_ops.rs:364-376 |
| C80 | `C80_into_violated` | `into()` of a complex vector truncates the storage and expands it again to the full capacity: trailing zeros | vector/src/vector_types/support_std.rs:628-629, 661 |
| C80 | `C80_get_vec_violated`, `C80_get_slice_violated` | `get`/`into` panic for an empty `Vec`, `get` panics for slices with an odd number of elements | vector/src/vector_types/support_std.rs:667, support_core.rs:784 |
| C80 | `C80_memory_violated` | `Vec<Complex<T>>` is made from raw parts with capacity `len / 2`: for odd `len` the memory is released with a wrong size | vector/src/vector_types/support_std.rs:666-667 |
| C81 | `C81_ifft_violated` | vectors of the facade are generic: after `plain_ifft` the C program still has a vector in frequency domain although the code is 0 | interop/src/facade32.rs, vector/src/vector_types/time_freq/freq_to_time.rs:156 |
| C82 | `C82_split_prec_violated` | `statistics_split_prec` keeps one pair of compensations for all columns: digits lost in one column are added to the next one (a column of zeros has the sum 1/2) | precise_stats.rs:259-271, 506-521 |
| C85 | `C85_end_violated` | `convolve_vector_range` recomputes `take(range.start)` only (time_freq/mod.rs:218-273): the last `gpuMargin` numbers of a convolution on a GPU are uninitialised GPU memory, the last register even the old contents of the buffer |
| C85 | `C85_complex32_violated` | the complex product in ocl_kernels32.rs:2 has a wrong sign in its third component: the real part of every second point is wrong |
| C85 | `C85_complex64_odd_violated` | the phase of the response is counted in numbers and can be odd (gpu_support/ocl/mod.rs:161-164): with f64 and responses with an odd number of points, real and imaginary parts are mixed |
| C03 | `C03_complex_vec_violated` | an empty `Vec<Complex<T>>` without capacity panics in `to_complex_time_vec` | vector/src/vector_types/support_std.rs:651 |
| C49 | `C49_windowed_sfft_violated`, `C49_windowed_sifft_violated` | window of 2n points applied after interleaving; windowed_sifft rejects symmetric spectra like sifft | time_to_freq.rs:262, freq_to_time.rs:236 |
| C90 | `C90_sum_prec_violated`, `C90_statistics_prec` | the compensation becomes `inf - inf`: `sum_prec`, `sum_sq_prec` and `statistics_prec` of f64 data with an infinity which is not the last element are NaN, `sum` is infinity; f32 data are right (`C90_sum_prec_f32`) | vector/src/vector_types/general/mod.rs:23-55, precise_stats.rs:622-643 |
| C90 | `C90_dot_prec_violated` | the same in `dot_product_prec`, for every register type: infinity plus numbers is NaN if another register follows; `dot_product` gives infinity | dot_products.rs:192-197, 244-249, general/mod.rs:31-34 |
| C90 | `C90_statistics_index_violated` | index 0 is reported as position of an infinite minimum even if a NaN stands there; data of NaN only have minimum inf and maximum -inf | statistics.rs:185-196, 251-263 |
| C90 | `C90_split_prec_violated` | the columns of `statistics_split_prec` (f64) share one compensation: after an infinity or NaN in one column, the sum of every column with a later point is NaN | precise_stats.rs:242-275 |
| C90 | `C90_complex_index_violated` | complex data which begin with a NaN: a maximum of zero is reported with the index 0, where the NaN stands; a minimum `inf + inf i`, which does not occur, if all norms are NaN | statistics.rs:270-282, 341-353 |
| C90 | `C90_diff_cum_sum_violated`, `C90_scale_complex_violated` | consequences of the IEEE rules: cum_sum does not undo diff_with_start after an infinity; scaling with x + 0i makes a part NaN where the other one is infinite, scaling with x does not | diff_sum.rs, elementary.rs |
| C92 | `C92_interpft_even_violated` | a real vector of even length which is interpolated with interpft to more points and back loses half of its highest frequency ([1, -1] becomes [1/2, -1/2]): the bin at half of the sampling rate is not shared between both sides of the spectrum | time_freq/interpolation.rs: interpft |
| C93 | `C93_convolve_violated` | convolution with registers multiplies the points next to the window with the zeros which fill up the response: a NaN or infinity makes values NaN which do not depend on it (for vectors with more than 1000 numbers and responses with 12 to 202 numbers) | time_freq/mod.rs:81-165, 531-610 |
| C98 | `C98_counter_violated` | the loop counter of `interpolate_lin` is a float and stops at 2^24 for `f32` (2^53 for `f64`): [0, 1] with the factor 2^25 becomes a ramp in the first half and the constant 1/2 in the second half | time_freq/real_interpolation.rs:53-66 |
| C98 | `C98_panic_violated` | four numbers, the factor 2^22 + 1/2 (`f32`) and no delay: the length is rounded up, the last position is rounded to 3 and `interpolate_lin` reads past the end (panic) | time_freq/real_interpolation.rs:37-66 |

`C15_zero_limit`, `C07_surround_two_points` and `C26_empty` record surprising behaviour which does not
contradict the statements.
