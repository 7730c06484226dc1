{"id": "C01", "title": "Shape invariant over every history", "statement": "After any sequence of length-changing or state-changing vector operations (resize, resize_b, zero_pad, zero_pad_b, zero_interleave, reverse, swap_halves, diff, diff_with_start, cum_sum, decimatei, conversions, rededicate) that did not panic, len() never exceeds alloc_len(), and a vector that reports is_complex() has an even len(), hence points() counts whole complex points.", "quantifier": "every start vector, every storage kind, every finite sequence of operations with every argument", "why_tests_cant": "The invariant is about all reachable states; tests only visit a handful of operation sequences, and the violation found (rededicate_from) needs a particular order of type conversions.", "anchors": ["vector/src/vector_types/vec_impl_and_indexers.rs:resize,resize_b", "vector/src/vector_types/rededicate_and_relations.rs:rededicate_from", "vector/src/vector_types/support_core.rs:to_gen_dsp_vec"]}
{"id": "C02", "title": "resize keeps the common prefix or reports an error", "statement": "resize(n) either returns Ok, sets len() to n and leaves the first min(old len, n) numbers unchanged, or returns Err and leaves the vector unchanged; Err(InputMustHaveAnEvenLength) is returned exactly for a complex vector and odd n, and Err(TypeCanNotResize) exactly if the storage cannot grow to n. resize_b behaves the same; where the storage cannot grow it exchanges it for a larger one from the buffer and keeps the numbers.", "quantifier": "every vector, storage kind and requested length", "why_tests_cant": "Storage kinds x lengths x number spaces is an unbounded product and errors must be side-effect free in all of it.", "anchors": ["vector/src/vector_types/vec_impl_and_indexers.rs:ResizeOps::resize", "vector/src/vector_types/vec_impl_and_indexers.rs:ResizeBufferedOps::resize_b", "vector/src/vector_types/requirements.rs:Resize"]}
{"id": "C03", "title": "Construction exposes exactly the given numbers, odd complex input gives an empty vector", "statement": "Building a vector from Vec, Box<[T]>, slices or arrays gives a vector whose data is exactly the input; if a complex vector is requested and the input length is odd then the vector has length zero.", "quantifier": "every input container, length and number space", "why_tests_cant": "Every constructor repeats the parity check by hand; a missed constructor shows up only for odd inputs of that particular container.", "anchors": ["vector/src/vector_types/support_std.rs:ToDspVector for Vec", "vector/src/vector_types/support_core.rs:ToDspVector for &[T]", "vector/src/vector_types/to_from_vec_conversions.rs"]}
{"id": "C04", "title": "Interleaving real and imaginary parts round-trips", "statement": "interleave_to_complex_*_vec of two equally long containers followed by reading the real and imaginary parts (get_real_imag / real / imag) returns both containers; set_real_imag followed by get_real_imag returns what was set, and inputs of different length are rejected with an error and leave the vector unchanged.", "quantifier": "all pairs of input sequences of every length", "why_tests_cant": "Index arithmetic 2i / 2i+1 has to be right for every length; the error path must not corrupt state.", "anchors": ["vector/src/vector_types/to_from_vec_conversions.rs:interleave_to_complex_time_vec", "vector/src/vector_types/complex/complex_to_real.rs:set_real_imag,get_real_imag"]}
{"id": "C05", "title": "reverse maps position i to n-1-i", "statement": "reverse() puts point n-1-i at position i for all i, keeps the length, treats complex points as units and is its own inverse.", "quantifier": "every vector length (odd and even), real and complex", "why_tests_cant": "The in-place half-swap splits the array unevenly for odd lengths.", "anchors": ["vector/src/vector_types/general/data_reorganization.rs:reverse", "vector/src/vector_types/mod.rs:reverse_array"]}
{"id": "C06", "title": "swap_halves, fft_shift and ifft_shift are rotations and mutually inverse", "statement": "swap_halves()/fft_shift() rotate the points right by floor(n/2), ifft_shift() rotates them left by floor(n/2); fft_shift followed by ifft_shift is the identity for odd and even lengths. (ifft_shift of a one point vector panics, see C51.)", "quantifier": "every length, real and complex", "why_tests_cant": "For odd lengths the implementation walks a permutation cycle in place; that the walk visits every element exactly once is a number theoretic fact (gcd(n/2, n)=1 for odd n) not settled by examples.", "anchors": ["vector/src/vector_types/mod.rs:swap_array_halves", "vector/src/vector_types/general/data_reorganization.rs:swap_halves", "vector/src/vector_types/time_freq/time_to_freq.rs", "vector/src/vector_types/time_freq/freq_to_time.rs"]}
{"id": "C07", "title": "zero_pad places the old points and zeros exactly", "statement": "zero_pad(points, End|Surround|Center) with points > old points yields the old points unchanged in order, at the documented place: End - at the start; Center - the first ceil(n/2) points at the start, the rest at the end; Surround - of k added points floor((k-1)/2) zeros follow the data and the others precede it, and zeros everywhere else; with points <= old points it returns Err(InvalidArgumentLength) and changes nothing.", "quantifier": "every vector, target size and padding option, whatever the storage held beyond len()", "why_tests_cant": "The in-place version overlaps source and destination ranges; correctness depends on copy order for all size combinations.", "anchors": ["vector/src/vector_types/general/data_reorganization.rs:zero_pad"]}
{"id": "C08", "title": "zero_pad_b gives the same result as zero_pad", "statement": "The buffered zero_pad_b(buffer, points, option) leaves the vector with the same contents as zero_pad(points, option), for every content of the buffer, and never panics when zero_pad succeeds.", "quantifier": "every vector, target size, padding option and every stale buffer content", "why_tests_cant": "The buffer holds garbage from previous operations; only a statement over all buffer contents excludes leakage.", "anchors": ["vector/src/vector_types/general/data_reorganization.rs:zero_pad_b"]}
{"id": "C09", "title": "zero_interleave inserts exactly factor-1 zeros after every point", "statement": "zero_interleave(f) with f >= 1 puts point i at position f*i and zeros at all other positions of the f-times longer vector; the buffered version zero_interleave_b gives the same result for every buffer content. (Complex vectors: storage with an even number of cells, see C52; zero_interleave_b: non-empty vectors, see C51.)", "quantifier": "every vector, factor and buffer content, real and complex", "why_tests_cant": "In-place backward expansion is order sensitive, the buffered variant uses raw pointers.", "anchors": ["vector/src/vector_types/general/data_reorganization.rs:zero_interleave,zero_interleave_b"]}
{"id": "C10", "title": "split_into and merge are inverse", "statement": "split_into(targets) distributes point i to target i mod k at position i div k; merge of these targets returns the original vector. If the number of points is not a multiple of k an error is returned.", "quantifier": "every vector, every positive number of targets, real and complex, for storages larger than the vector as well", "why_tests_cant": "Round trip over all lengths and target counts and over storages whose capacity exceeds the vector length.", "anchors": ["vector/src/vector_types/general/data_reorganization.rs:split_into,merge"]}
{"id": "C11", "title": "diff_with_start and cum_sum are inverse", "statement": "diff() replaces the data by the n-1 successive differences; diff_with_start() keeps the first point and replaces each further point by the difference to its predecessor; cum_sum() replaces each point by the sum of all points up to it; cum_sum after diff_with_start restores the vector, for real and complex data. (diff: non-empty vectors, see C51; complex vectors: storage with an even number of cells, see C52.)", "quantifier": "every vector over any commutative group of numbers", "why_tests_cant": "The loops update the array in place while reading neighbours; correctness needs an induction over positions.", "anchors": ["vector/src/vector_types/general/diff_sum.rs:diff,diff_with_start,cum_sum"]}
{"id": "C12", "title": "Chunk ranges tile the data", "statement": "Whatever the length, step size and number of workers, the chunks handed to the workers are non-empty, pairwise disjoint, consecutive, cover the whole data, begin at multiples of the step size, and the range announced to each worker is exactly the position of its chunk. (Non-empty data, for empty data see C51.)", "quantifier": "every array length, step size and worker count", "why_tests_cant": "The range computation re-derives the chunk size from the number of chunks; that both agree is an arithmetic fact over all sizes.", "anchors": ["vector/src/multicore_support/threading.rs:calc_chunk_size,partition,partition_in_ranges"]}
{"id": "C13", "title": "Multi-threaded element-wise operations are schedule independent", "statement": "An element-wise operation executed with any multicore settings and any interleaving of its worker threads gives bit for bit the result of the sequential loop.", "quantifier": "every operation, vector, multicore setting and interleaving of the workers", "why_tests_cant": "Schedules cannot be enumerated by tests.", "anchors": ["vector/src/multicore_support/threading.rs:execute_partial,execute_with_range", "vector/src/vector_types/general/mapping.rs:map_inplace", "vector/src/vector_types/mod.rs:pure_real_operation"]}
{"id": "C14", "title": "Multi-threaded reductions do not depend on completion order", "statement": "A reduction whose combination is associative and commutative (sums in exact arithmetic, map_aggregate with a commutative aggregate) returns the sequential result for every worker count and every order in which workers finish. (Non-empty data or positive thresholds, see C51.)", "quantifier": "every data vector, worker count and completion order", "why_tests_cant": "Results are pushed in the nondeterministic order in which threads get the lock.", "anchors": ["vector/src/multicore_support/threading.rs:map_on_array_chunks,get_chunked_results,get_zipped", "vector/src/vector_types/general/mapping.rs:map_aggregate"]}
{"id": "C15", "title": "No more workers than the core limit", "statement": "An operation never uses more workers than the core limit of the vector (at least one), uses exactly one if the limit is one or the operation is simple, and dual core thresholds lie below multi core thresholds in every settings object. (Settings with a core limit of at least one, non-empty data; see C51.)", "quantifier": "every settings object obtained from the public constructors, array length and operation complexity", "why_tests_cant": "Combination of thresholds, lengths and limits is unbounded.", "anchors": ["vector/src/multicore_support/threading.rs:MultiCoreSettings,determine_number_of_chunks"]}
{"id": "C16", "title": "Symmetric window path equals the general path", "statement": "Applying a symmetric window gives, for every multicore setting and length, the same result as multiplying every point i by window(i, n).", "quantifier": "every symmetric window function, vector length and multicore setting", "why_tests_cant": "The symmetric path pairs chunks from both ends; which length/worker combinations break the pairing is an arithmetic question.", "anchors": ["vector/src/multicore_support/threading.rs:execute_sym_pairs_with_range", "vector/src/vector_types/time_freq/mod.rs:multiply_window_priv", "vector/src/vector_types/time_freq/time.rs:apply_window"]}
{"id": "C17", "title": "unapply_window undoes apply_window", "statement": "apply_window(w) followed by unapply_window(w) restores the data, for every window without zeros (over exact arithmetic). (Non-empty vectors; windows declared symmetric: at least two points and a core limit of at least one, see C51.)", "quantifier": "every vector and window function", "why_tests_cant": "Any window function may be supplied by the user.", "anchors": ["vector/src/vector_types/time_freq/time.rs:apply_window,unapply_window", "vector/src/vector_types/time_freq/mod.rs:multiply_window_priv"]}
{"id": "C18", "title": "SIMD and scalar parts tile the data", "statement": "Splitting a slice for SIMD yields a scalar prefix, register blocks and a scalar suffix which together contain every element exactly once, in order, and iterating the edges visits exactly the non-register elements.", "quantifier": "every slice length, alignment and register size", "why_tests_cant": "Alignment of user data is arbitrary.", "anchors": ["vector/src/simd_extensions/mod.rs:calc_data_alignment_reqs", "vector/src/simd_extensions/simd_partition.rs"]}
{"id": "C19", "title": "SIMD splitting never panics and respects complex points", "statement": "For every alignment a slice of numbers can have, splitting it for SIMD succeeds with the register part aligned, and for complex data no complex point is cut in two.", "quantifier": "every element-aligned address, slice length, register width", "why_tests_cant": "The allocator usually returns 16 byte aligned memory so tests never see the other alignments.", "anchors": ["vector/src/simd_extensions/mod.rs:calc_data_alignment_reqs", "vector/src/simd_extensions/simd_partition.rs", "vector/src/simd_extensions/sse.rs"]}
{"id": "C20", "title": "Element-wise operations give the same result with SIMD and without", "statement": "add, sub, mul, div, offset and scale (real and complex) compute the same vector on the SIMD path as the plain loop, position by position. (Data addresses are those which the SIMD splitting accepts - see C19 - as 16 byte aligned heap data always is; complex vectors have storage with an even number of cells - see C52.)", "quantifier": "every operand, length, alignment accepted by the splitter, register width and number of workers", "why_tests_cant": "Each length/alignment splits differently.", "anchors": ["vector/src/vector_types/general/elementary.rs", "vector/src/vector_types/mod.rs:simd_real_operation,simd_complex_operation"]}
{"id": "C21", "title": "Vector sums and dot products are complete", "statement": "sum(), sum_sq() and dot_product() include each element of the valid range exactly once: in exact arithmetic they equal the mathematical sum irrespective of SIMD width, alignment and number of workers. (Data addresses are those which the SIMD splitting accepts - see C19 - as 16 byte aligned heap data always is; complex vectors have storage with an even number of cells - see C52.) dot_product: operands of equal length, see C51.", "quantifier": "every operand, length, register width, alignment", "why_tests_cant": "The reduction tree depends on alignment and length.", "anchors": ["vector/src/vector_types/general/dot_products.rs", "vector/src/vector_types/general/statistics.rs:sum,sum_sq"]}
{"id": "C22", "title": "Binary operations check their operands and fail without effect", "statement": "add/sub/mul/div with an operand return Err(InputMustHaveTheSameSize) for different lengths and Err(InputMetaDataMustAgree) for different domain, number space or sampling distance (beyond 10%), in that order, leaving the vector unchanged; otherwise position i becomes a[i] op b[i]. (Data addresses are those which the SIMD splitting accepts - see C19 - as 16 byte aligned heap data always is; complex vectors have storage with an even number of cells - see C52.)", "quantifier": "every pair of vectors", "why_tests_cant": "Errors must be side-effect free for all metadata combinations.", "anchors": ["vector/src/vector_types/general/elementary.rs:add,sub,mul,div", "vector/src/vector_types/mod.rs:assert_meta_data"]}
{"id": "C23", "title": "*_smaller operations cycle through the shorter operand", "statement": "add_smaller/sub_smaller/mul_smaller/div_smaller combine position i with operand[i mod m] where m is the operand length, and return an error if the vector length is not a multiple of m.", "quantifier": "every pair of vectors with positive operand length", "why_tests_cant": "Wrap-around has to hold at every multiple.", "anchors": ["vector/src/vector_types/general/elementary.rs:add_smaller"]}
{"id": "C24", "title": "Statistics describe exactly the valid data", "statement": "statistics() returns count n, the sum and average, and min/max together with the index of an element that attains them (the first), and no element is smaller than min or larger than max.", "quantifier": "every non-empty vector over any linear order", "why_tests_cant": "Min/max/index must be right for every order of the data.", "anchors": ["vector/src/vector_types/general/statistics.rs:statistics,Stats::add"]}
{"id": "C25", "title": "Merging partial statistics equals statistics of the whole", "statement": "Statistics::merge of the statistics of consecutive pieces equals the statistics of the concatenated data.", "quantifier": "every way of cutting every data vector into pieces", "why_tests_cant": "Needs particular value orders in the pieces to fail.", "anchors": ["vector/src/vector_types/general/statistics.rs:Stats::merge"]}
{"id": "C26", "title": "statistics_split partitions the data round robin", "statement": "statistics_split(k) returns k statistics, the j-th being the statistics of the sub-sequence j, j+k, j+2k, ...; k=0 gives an empty result and k>16 Err(InvalidArgumentLength). For an empty vector the list of statistics is empty.", "quantifier": "every vector and k", "why_tests_cant": "All lengths and split counts.", "anchors": ["vector/src/vector_types/general/statistics.rs:statistics_split,merge_cols"]}
{"id": "C27", "title": "map_aggregate only sees valid data", "statement": "map_aggregate aggregates map(x_i, i) over exactly the valid elements of the vector, and map_inplace changes exactly these; data beyond len() has no influence on the result.", "quantifier": "every vector whose storage is larger than its length", "why_tests_cant": "Requires storages with stale data beyond the length.", "anchors": ["vector/src/vector_types/general/mapping.rs:map_inplace,map_aggregate"]}
{"id": "C28", "title": "Compensated summation equals the plain sum in exact arithmetic", "statement": "kahan_sum/kahan_sumb return the mathematical sum when arithmetic is exact; the precise statistics compute the same values as the plain statistics in exact arithmetic. (dot_product_prec: operands of equal length, see C51.)", "quantifier": "every sequence over any commutative ring", "why_tests_cant": "Universal statement on all sequences.", "anchors": ["vector/src/vector_types/general/mod.rs:kahan_sum", "vector/src/vector_types/general/precise_stats.rs:add_prec"]}
{"id": "C29", "title": "Real to complex to real round trip", "statement": "to_complex() of a real vector followed by to_real() gives the original data; to_imag() gives zeros; number space and length change accordingly. (Buffered version: non-empty vectors, see C51.)", "quantifier": "every real vector", "why_tests_cant": "In-place widening/narrowing must be right for all lengths.", "anchors": ["vector/src/vector_types/real/real_to_complex.rs", "vector/src/vector_types/complex/complex_to_real.rs"]}
{"id": "C30", "title": "In-place and buffered complex to real conversions agree", "statement": "to_real/to_imag/magnitude/magnitude_squared/phase in place and with a buffer or destination vector give the same numbers: output i depends exactly on complex point i, for every storage size and stale content.", "quantifier": "every complex vector, buffer content and storage size", "why_tests_cant": "The in-place loop overwrites its own input.", "anchors": ["vector/src/vector_types/complex/complex_to_real.rs", "vector/src/vector_types/mod.rs:pure_complex_to_real_operation,pure_complex_to_real_operation_inplace"]}
{"id": "C31", "title": "Complex operations on points", "statement": "conj() is an involution; multiply_complex_exponential(a, b) multiplies point i by exp(j(a*i*delta+b)) as documented.", "quantifier": "every complex vector, a, b and sampling distance", "why_tests_cant": "The default sampling distance of 1 hides wrong scaling.", "anchors": ["vector/src/vector_types/complex/complex_ops.rs"]}
{"id": "C32", "title": "Number space or domain mismatch marks the vector as erroneous", "statement": "Operations which require another number space or domain than the run-time tracked one leave an empty vector for which the error state is observable, and do not panic.", "quantifier": "every generic vector and every operation with such a requirement", "why_tests_cant": "All operations x all metadata combinations.", "anchors": ["vector/src/vector_types/mod.rs:mark_vector_as_invalid", "vector/src/vector_types/checks_and_results.rs", "vector/src/vector_types/real/real_ops.rs", "vector/src/vector_types/complex/complex_ops.rs"]}
{"id": "C33", "title": "wrap and unwrap", "statement": "unwrap(d) after wrapping restores a sequence whose successive differences are below d/2 in magnitude (up to the constant offset of the first element), for every length.", "quantifier": "every sequence with bounded steps over exact arithmetic", "why_tests_cant": "Accumulated offset has to be right for every number of wraps.", "anchors": ["vector/src/vector_types/real/real_ops.rs:wrap,unwrap"]}
{"id": "C34", "title": "fft and ifft are inverse", "statement": "ifft(fft(x)) = x for every complex vector of positive length when the underlying transform pair is inverse up to the factor n: the shift and scaling steps of the library cancel for odd and even lengths. (At least two points, see C51.) windowed_fft is fft of the signal multiplied with the window; windowed_ifft divides the result of ifft by the window, so that it undoes windowed_fft for every window without zeros.", "quantifier": "every vector length, given any transform pair with the DFT inversion property", "why_tests_cant": "Odd lengths shift asymmetrically.", "anchors": ["vector/src/vector_types/time_freq/time_to_freq.rs:fft", "vector/src/vector_types/time_freq/freq_to_time.rs:ifft"]}
{"id": "C35", "title": "Domain and number space after transforms", "statement": "After fft/plain_fft the vector reports the frequency domain and complex numbers; after ifft/plain_ifft it reports the time domain; after sifft it reports time domain and real numbers.", "quantifier": "every generic (run-time typed) vector", "why_tests_cant": "State machine over all metadata combinations.", "anchors": ["vector/src/vector_types/time_freq/time_to_freq.rs", "vector/src/vector_types/time_freq/freq_to_time.rs"]}
{"id": "C36", "title": "mirror restores the redundant half spectrum", "statement": "mirror() of the first n/2+1 bins of a conjugate symmetric spectrum of odd length n restores the full spectrum; the result is always conjugate symmetric. (Non-empty complex vectors, see C51.)", "quantifier": "every spectrum", "why_tests_cant": "Index arithmetic over all lengths.", "anchors": ["vector/src/vector_types/time_freq/freq.rs:mirror", "vector/src/vector_types/time_freq/time_to_freq.rs:unmirror"]}
{"id": "C37", "title": "convolve_signal computes the circular convolution", "statement": "convolve_signal(h) replaces x by y with y[i] = sum_k h[k] * x[(i + c - k) mod n] for the documented centre, for every vector length n and impulse response length <= n, real and complex; different meta data, a longer impulse response give an error and no change.", "quantifier": "every signal, impulse response, length", "why_tests_cant": "Wrap-around at both ends and odd/even response lengths.", "anchors": ["vector/src/vector_types/time_freq/mod.rs:convolve_signal_scalar,convolve_iteration", "vector/src/vector_types/time_freq/convolution.rs:convolve_signal"]}
{"id": "C38", "title": "SIMD convolution equals scalar convolution", "statement": "The SIMD implementation selected for long signals and short responses gives in exact arithmetic the same result as the scalar one, independent of alignment and worker count. (Sizes for which the library selects the SIMD path, data addresses accepted by the splitting, see C19.)", "quantifier": "every signal and response the SIMD path accepts", "why_tests_cant": "The SIMD path combines shifted copies, unaligned starts and edge handling.", "anchors": ["vector/src/vector_types/time_freq/mod.rs:convolve_signal_simd,create_shifted_copies"]}
{"id": "C39", "title": "Wrapping iterators are modular indexing", "statement": "WrappingIterator/ReverseWrappingIterator produce exactly the requested number of elements at positions pos+1+k resp. pos-1-k modulo the slice length, for every (also negative) start, and never leave the slice.", "quantifier": "every non-empty slice, start and count", "why_tests_cant": "Pointer arithmetic: memory safety for all starts.", "anchors": ["vector/src/vector_types/time_freq/mod.rs:WrappingIterator,ReverseWrappingIterator"]}
{"id": "C40", "title": "next_power_of_two", "statement": "next_power_of_two(v) returns for v>0 a power of two that is >= v and less than 2v.", "quantifier": "every integer", "why_tests_cant": "Unbounded domain.", "anchors": ["vector/src/vector_types/time_freq/convolution.rs:next_power_of_two"]}
{"id": "C41", "title": "decimatei keeps every k-th point", "statement": "decimatei(k, d) with k>=1 keeps exactly the points d, d+k, d+2k, ... in order, for real and complex data.", "quantifier": "every vector, factor and delay", "why_tests_cant": "In-place compaction for all sizes.", "anchors": ["vector/src/vector_types/time_freq/interpolation.rs:decimatei"]}
{"id": "C42", "title": "Linear interpolation reproduces the knots", "statement": "interpolate_lin with an integer factor f and zero delay gives (n-1)f+1 points which agree with the original data at multiples of f and lie on the connecting straight lines in between.", "quantifier": "every real vector of length >= 1 and integer factor >= 1", "why_tests_cant": "Rounding and last-element handling over all sizes.", "anchors": ["vector/src/vector_types/time_freq/real_interpolation.rs:interpolate_lin"]}
{"id": "C43", "title": "Buffers are transparent", "statement": "The result of a buffered operation depends neither on which buffer type is supplied nor on what it held before.", "quantifier": "every buffer kind and content", "why_tests_cant": "Buffer contents are history dependent.", "anchors": ["vector/src/vector_types/support_std.rs:SingleBuffer", "vector/src/vector_types/buffer.rs", "vector/src/vector_types/support_core.rs:NoTradeBuffer,FixedLenBuffer"]}
{"id": "C44", "title": "InlineVector behaves like a bounded list", "statement": "push/pop/insert/remove/try_resize/indexing on the inline storage behave like the list operations while the capacity suffices and report an error otherwise.", "quantifier": "every history of operations", "why_tests_cant": "Histories are unbounded.", "anchors": ["vector/src/inline_vector/fixed_size.rs", "vector/src/inline_vector/dynamic.rs"]}
{"id": "C45", "title": "SIMD registers compute complex arithmetic", "statement": "For every register type the operations used by the vector operations (adding and scaling with a real or complex number, complex multiplication and division, squared norms with half stores, horizontal sums) compute, in exact arithmetic, the corresponding operation on every lane or complex point of the register, in order.", "quantifier": "every register type selected at run time and all lane values", "why_tests_cant": "The register type depends on the CPU and on feature flags; a wrong lane order shows up only for that type and only if neighbouring points differ.", "anchors": ["vector/src/simd_extensions/fallback.rs", "vector/src/simd_extensions/sse.rs", "vector/src/simd_extensions/avx.rs:store_half,complex_abs_squared"]}
{"id": "C46", "title": "Magnitude and phase round-trip", "statement": "get_mag_phase writes magnitude and phase of every point into the destinations; set_mag_phase followed by get_mag_phase returns what was set (for pairs which the polar representation determines); magnitude and phase of different length are rejected with an error and leave the vector unchanged.", "quantifier": "every complex vector, every pair of real vectors and every destination that can hold the result", "why_tests_cant": "All lengths, storages and stale contents.", "anchors": ["vector/src/vector_types/complex/complex_to_real.rs:get_mag_phase,set_mag_phase"]}
{"id": "C47", "title": "Mathematical functions act on every point", "statement": "sin, cos, tan, their inverses and hyperbolic versions, sqrt, square, root, powf, ln, exp, log, expf and abs replace every number of a real vector and every point of a complex vector by the value of the function; length, meta data and unused storage stay the same, independent of the number of workers, their interleaving and the SIMD registers. (Data addresses are those which the SIMD splitting accepts - see C19 - as 16 byte aligned heap data always is; complex vectors have storage with an even number of cells - see C52.)", "quantifier": "every vector, function, multicore setting, schedule and register type", "why_tests_cant": "The functions run on several workers and on SIMD registers; all splits and schedules count.", "anchors": ["vector/src/vector_types/general/trigonometry_and_powers.rs", "vector/src/vector_types/real/real_ops.rs:abs", "vector/src/vector_types/mod.rs:pure_real_operation,pure_complex_operation"]}
{"id": "C48", "title": "Sampling distance through transforms", "statement": "delta() is in seconds in the time domain and in Hertz in the frequency domain: the spectrum of n points with distance d has the distance 1/(n d), and a transform to the frequency domain and back restores delta().", "quantifier": "every vector, length and sampling distance", "why_tests_cant": "The relation must hold for all lengths and distances.", "anchors": ["vector/src/vector_types/time_freq/mod.rs:fft", "vector/src/vector_types/vec_impl_and_indexers.rs:delta"]}
{"id": "C49", "title": "Symmetric transforms work on the non redundant half of the spectrum", "statement": "For a real vector with an odd number n of points sfft and plain_sfft return the n/2+1 non redundant points of the spectrum, plain_sifft turns this half back into the real signal (times n), and sifft into the real signal; even lengths, complex or frequency domain data are rejected with an error. windowed_sfft is sfft of the signal multiplied with the window.", "quantifier": "every real vector of odd length, static and run-time typed, every buffer and schedule, given any transform pair with the properties of the DFT", "why_tests_cant": "All lengths, number spaces and buffer states.", "anchors": ["vector/src/vector_types/time_freq/time_to_freq.rs:plain_sfft,sfft", "vector/src/vector_types/time_freq/freq_to_time.rs:plain_sifft,sifft"]}
{"id": "C50", "title": "Hermite interpolation is piecewise cubic through the data", "statement": "interpolate_hermite with an integer factor f and a delay of less than one step of the output (0 <= d < 1/f) gives (n-1)f+1 points, point i is the value at i/f + d: without delay the given numbers are reproduced at multiples of f, and in between lies the cubic Hermite curve whose slope at every point is that of the line through its neighbours (the data are continued linearly at both ends); complex vectors are marked invalid. (At least three points, see C51. Longer delays panic.)", "quantifier": "every real vector, factor and delay", "why_tests_cant": "Three loops with different boundary handling; positions, rounding and lengths must fit for all sizes.", "anchors": ["vector/src/vector_types/time_freq/real_interpolation.rs:interpolate_hermite"]}
{"id": "C51", "title": "No public operation panics on degenerate input", "statement": "No public operation on a well-formed vector panics: vectors of length zero, one or two, operands of another length, delays and factors out of range and unusual multicore settings give an error or a (possibly empty) result.", "quantifier": "every operation, every well-formed vector and every argument", "why_tests_cant": "The panics found need empty or one point vectors, operands of another length, or factors and delays in certain ranges.", "anchors": ["vector/src/vector_types/general/data_reorganization.rs", "vector/src/vector_types/general/diff_sum.rs:diff", "vector/src/vector_types/general/dot_products.rs", "vector/src/vector_types/real/real_to_complex.rs:to_complex_b", "vector/src/vector_types/time_freq/freq_to_time.rs", "vector/src/vector_types/time_freq/real_interpolation.rs", "vector/src/multicore_support/threading.rs"]}
{"id": "C52", "title": "Unused storage has no influence", "statement": "The part of the storage beyond len() has no influence on the result of any operation: neither its size, nor the parity of its size, nor its contents.", "quantifier": "every operation and all pairs of vectors which agree in their first len() numbers and meta data", "why_tests_cant": "Freshly built vectors have no unused storage; it needs an operation that shrinks the vector first.", "anchors": ["vector/src/vector_types/mod.rs:array_to_complex", "vector/src/vector_types/general/mapping.rs", "vector/src/vector_types/general/dot_products.rs", "vector/src/vector_types/general/diff_sum.rs", "vector/src/vector_types/complex/complex_to_real.rs"]}
{"id": "C53", "title": "A vector behaves as the abstract signal it shows, through any history of operations", "statement": "What a user sees of a vector - its numbers (real or complex), domain, static or run-time typing and sampling distance - after any sequence of calls is the composition of the mathematical meaning of the calls, applied to the signal that the vector showed at the beginning. The environment - kind, size and stale contents of the storage, buffers given to the calls, the choice between the versions with and without a buffer, multicore settings, schedules of the workers, SIMD registers and data addresses - has no influence on the outcome, and no call panics. Covered are the calls on one vector: resize, zero padding and interleaving, reversal, shifts, diff, cum_sum, decimation, rededication, number space conversions, set_real_imag, set_mag_phase, merge, offset, scale, mathematical functions, maps, windows, complex transforms and mirror. (Environments accepted by each call, as spelled out by Safe in Spec/Safe.lean: buffers and storages that can hold the result, addresses accepted by the SIMD splitting, correct number space and domain, the exclusions of C07, C16, C19, C51 and C52; the symmetric transforms are treated in C49.)", "quantifier": "every vector, every sequence of operations of any length, every schedule and every pair of environments", "why_tests_cant": "The claim is about all histories and all pairs of environments; tests run single calls in one environment.", "anchors": ["vector/src/vector_types/general/data_reorganization.rs", "vector/src/vector_types/general/elementary.rs", "vector/src/vector_types/general/mapping.rs", "vector/src/vector_types/general/diff_sum.rs", "vector/src/vector_types/real/real_to_complex.rs", "vector/src/vector_types/complex/complex_to_real.rs", "vector/src/vector_types/time_freq/time_to_freq.rs", "vector/src/vector_types/time_freq/freq_to_time.rs", "vector/src/vector_types/time_freq/time.rs:apply_window", "vector/src/vector_types/support_core.rs:Buffer"]}
{"id": "C54", "title": "Cross correlation computes the cross correlation for all lags", "statement": "For two complex time signals a and b with n points each, prepare_argument_padded on b followed by correlate on a turns a into its cross correlation with b: 2n-1 points, point r belongs to the lag r-(n-1) and is the sum over k of a(k+lag)*conj(b(k)), a continued with zeros; the domain, number space and sampling distance of a are kept. With an argument prepared from any longer signal B (prepare_argument), correlate gives the circular correlation of the zero padded a with B, lag zero in the middle. Neither depends on the buffer, the registers, the number of workers or their schedule. Real vectors and vectors in the wrong domain are rejected with an error. (Data addresses accepted by the splitting, see C19; buffers of fixed size which are large enough; the Fourier transform satisfies the correlation theorem, which is proved for the discrete Fourier transform over the reals.)", "quantifier": "all complex signals of any length, static and generic types, buffers, addresses, settings and schedules", "why_tests_cant": "needs all lengths and values; alignment of lags after padding and rotation is only visible on general inputs", "anchors": ["vector/src/vector_types/time_freq/correlation.rs: prepare_argument, prepare_argument_padded, correlate", "vector/src/vector_types/general/data_reorganization.rs: zero_pad_b, swap_halves"]}
{"id": "C55", "title": "Convolution with a function computes the convolution", "statement": "For a time signal x, a real function f (or, for complex signals, a complex function), a ratio and a length, convolve replaces point i by the sum over all m from -len to len of x[i - m] * f(m * ratio), where x is continued periodically and len is limited to the number of points; the number of points, number space, domain and sampling distance stay as they are. The result does not depend on the size of the signal selecting a special implementation. Signals in the frequency domain (and real signals with a complex function) are marked as invalid.", "quantifier": "all signals of any length, functions, ratios, lengths, buffers, addresses, settings and schedules", "why_tests_cant": "three implementations are selected by sizes and ratio; the conditions are met by large vectors with particular ratios only", "anchors": ["vector/src/vector_types/time_freq/convolution.rs: Convolution::convolve, would_benefit_from_simd, calc_points", "vector/src/vector_types/time_freq/mod.rs: convolve_function_priv", "vector/src/vector_types/time_freq/convolution.rs: convolve_signal"]}
{"id": "C56", "title": "Multiplication with a frequency response filters the spectrum", "statement": "For a spectrum with n points centred at 0 Hz, multiply_frequency_response multiplies point i with ratio * f(x * ratio), where x is the frequency of the point relative to the highest one, (i - n/2) / (n/2) with the quotients rounded down; f may be a real response, on real and complex spectra, or a complex response on complex spectra. The result is the same whether the response is announced as symmetric or not, and does not depend on the settings and the schedule of the workers. Number of points, number space, domain and sampling distance are kept; vectors in time domain, and real vectors with a complex response, are marked as invalid.", "quantifier": "all spectra with at least two points, even functions for symmetric responses, all ratios, settings and schedules", "why_tests_cant": "the symmetric implementation pairs chunks of the first with chunks of the second half; pairs, odd lengths and short last chunks differ for every length and number of workers", "anchors": ["vector/src/vector_types/time_freq/convolution.rs: FrequencyMultiplication::multiply_frequency_response", "vector/src/vector_types/time_freq/mod.rs: multiply_function_priv, fft_swap_x", "vector/src/multicore_support/threading.rs: execute_sym_pairs_with_range"]}
{"id": "C57", "title": "Interpolation in the frequency domain keeps the spectrum", "statement": "interpolate(f, N, d) turns a signal with n points into the signal with N points whose transform agrees with N/n times the transform of the signal at all frequencies of the shorter one of both, is zero elsewhere, has the linear phase of the delay d (in units of the sampling distance) and, if N > n, is multiplied with the frequency response f; interpft(N) is the same without delay and response. The sampling distance is multiplied with n/N; domain, number space and storage are kept; real vectors get the real parts. Consequences: interpft(n) changes nothing; interpft(m n) keeps the points of the signal as every m-th point; more points and back restores a complex signal; a delay by whole sampling distances rotates the points. Real vectors with a response which is not symmetric are rejected and not changed. No step panics, for every buffer, settings and schedule.", "quantifier": "all signals with at least one point, all N, delays, responses, storages, buffers, settings and schedules", "why_tests_cant": "needs all pairs n, N (even and odd lengths differ), all values and schedules", "anchors": ["vector/src/vector_types/time_freq/interpolation.rs: interpolate, interpft, apply_linear_phase, interpolate_upsample, interpolate_downsample"]}
{"id": "C58", "title": "Interpolation by a whole factor and decimation are inverse", "statement": "interpolatei(f, m) with m >= 2 gives m n points: m - 1 zeros after every point, then every bin of the transform is multiplied with m times the frequency response at its frequency (1 is the highest frequency of the original signal). If the responses at the images k, k + n, k + 2n, ... of every frequency add up to one then the points of the signal are kept as every m-th point of the result, and decimatei(m, 0) restores the signal. Factors 0 and 1 change nothing; real vectors with a response which is not symmetric are rejected and not changed. Domain, number space, storage and (unlike interpolate) the sampling distance are kept; no step panics, for every buffer, settings and schedule.", "quantifier": "all signals with at least one point, all factors, responses, storages, buffers, settings and schedules", "why_tests_cant": "needs all lengths, factors, responses and values", "anchors": ["vector/src/vector_types/time_freq/interpolation.rs: interpolatei, decimatei"]}
{"id": "C59", "title": "Interpolation with a function in the time domain", "statement": "interpolatef(f, factor, delay, L) turns n points into round(n factor) points: point i is the sum of x[p] f(i / factor - delay / delta - p) over the points p of the periodic continuation of the signal around the position i / factor, L on each side (at most half of the points). Which implementation is selected (with or without registers), settings, storage, buffer and schedule do not matter: for every even function and a whole factor each point is the sum over a window of 2 L + 1 points which contains all points closer than L; thus for a function which vanishes from the distance L on all implementations agree, and a function which is one at zero and zero at all other whole numbers keeps the points of the signal as points 0, F, 2 F, ... of the result. Sampling distance, domain, number space and storage are kept. (Signals with at least one point and results with at least one point.)", "quantifier": "all signals, functions, factors, delays, L, storages, buffers, settings, alignments and schedules", "why_tests_cant": "the selected implementation depends on the sizes; needs all lengths, factors, functions, values and schedules", "anchors": ["vector/src/vector_types/time_freq/interpolation.rs: interpolatef, interpolate_priv_scalar, interpolate_priv_simd, interpolate_priv_simd_step, function_to_vectors, function_to_vector"]}
{"id": "C60", "title": "A matrix operation does with every row what the operation of vectors does", "statement": "A matrix is an ordered collection of vectors. Every method of a matrix without a result (scaling, offsets, reordering, differences, sums, elementary functions, mapping, windows, transforms, mirroring, decimation, conversions between real and complex with or without a buffer) changes row i to what the method of vectors with the same name makes of row i: the rows do not influence each other (also if they share one buffer, whose contents one row leaves behind for the next), their number and order and the kind of the matrix (growing or with 2, 3 or 4 rows) do not matter, no row is left out or treated twice, and a history of calls on the matrix is the history of calls on every row. No call panics in an environment in which the vectors don't.", "quantifier": "all matrices, all histories of calls, all alignments, settings and schedules of every row, all shared buffers", "why_tests_cant": "needs all numbers of rows, contents of the shared buffer and schedules", "anchors": ["matrix/src/lib.rs: TransformContent", "matrix/src/general/elementary.rs", "matrix/src/real.rs", "matrix/src/complex.rs", "matrix/src/time_freq.rs"]}
{"id": "C61", "title": "Matrix operations which can fail report the error of the first row which fails", "statement": "resize, the elementary operations with a matrix or a vector as operand, set_real_imag, set_mag_phase, to_complex and sfft succeed if they succeed for every row, and then every row is changed like a vector with the corresponding row of the operand (or the operand vector). Otherwise the error of the first row which fails is reported; for the operations in place the rows before it are changed and this row and all others are as they were. All types of matrices report the same error, and an operand with a different number of rows is an error.", "quantifier": "all matrices and operands, all kinds of matrices, all rows which fail", "why_tests_cant": "needs all numbers of rows and positions of failing rows", "anchors": ["matrix/src/mat_impl.rs: resize", "matrix/src/general/elementary.rs: ElementaryOps", "matrix/src/real.rs: to_complex", "matrix/src/complex.rs: set_real_imag, set_mag_phase", "matrix/src/lib.rs: transform_res"]}
{"id": "C62", "title": "Matrix reductions and getters give one result per row", "statement": "sum, sum_sq, dot_product, statistics and statistics_split of a matrix give a collection of results, one per row in the order of the rows, each equal to the result for the row as a vector (for matrices with 2, 3 and 4 rows an array with as many entries); dot_product fails with the first error. get_real, get_imag, get_magnitude, get_magnitude_squared, get_phase, get_real_imag and get_mag_phase write the parts of row i into row i of the destinations and leave further rows of the destination alone.", "quantifier": "all matrices and destinations, all alignments, settings and schedules of every row", "why_tests_cant": "needs all numbers of rows, contents and schedules", "anchors": ["matrix/src/general/statistics.rs: SumOps, StatisticsOps, StatisticsSplitOps", "matrix/src/general/mod.rs: DotProductOps, PreciseDotProductOps", "matrix/src/complex.rs: get_real, get_imag, get_magnitude, get_magnitude_squared, get_phase, get_real_imag, get_mag_phase"]}
{"id": "C63", "title": "What a matrix says about its rows is right for every row", "statement": "A matrix made from storages has the converted storages as rows, in the same order, for all types of matrices; to_mat and get keep the vectors. row_len, row_points, is_complex, domain and delta describe every row of a matrix, after every history of calls; col_len is the number of rows; set_delta sets the sampling distance of every row and nothing else.", "quantifier": "all sources, all kinds of matrices, all histories of calls", "why_tests_cant": "needs all numbers of rows and histories", "anchors": ["matrix/src/mat_impl.rs", "matrix/src/to_from_mat_conversions.rs", "matrix/src/rededicate.rs"]}
{"id": "C64", "title": "Convolution of a matrix with a matrix of impulse responses", "statement": "convolve_signal of a matrix computes a linear system with several inputs and outputs: afterwards row n is the sum over all rows k of the (circular) convolution of row k, as it was before the call, with response k of the n-th list of responses; this holds for real and complex matrices, whatever is left in the buffer. The rows keep their number, length and meta data. If the first list of responses which does not fit has not exactly one response per row, or responses (or rows) of different lengths, then InvalidArgumentLength is reported and no row is changed; responses longer than the rows and matrices in frequency domain are errors too.", "quantifier": "all matrices (numbers of rows, lengths, number spaces), lists of responses, contents of the buffer", "why_tests_cant": "needs all sizes and numbers of rows; a row which is overwritten too early only shows for systems with coupling", "anchors": ["vector/src/vector_types/time_freq/mod.rs: convolve_mat, convolve_mat_iteration", "matrix/src/time_freq.rs: convolve_signal"]}
{"id": "C65", "title": "Lookup tables represent the function they were made from", "statement": "from_conv_function(f, delta, len) samples f at the 2*len+1 multiples of delta from -len*delta to len*delta and keeps delta and the symmetry flag. Evaluating the table gives the value of f at those points, the linear interpolation of the two neighbours between them, and zero outside of the range; it never panics, is symmetric if f is, and for a function with Lipschitz constant c it is off by at most c*|delta|/2 within the range.", "quantifier": "every function, every non-zero delta, every length, every argument", "why_tests_cant": "The arguments are a continuum and the table length is unbounded; tests compare a handful of points of one function.", "anchors": ["vector/src/conv_types.rs: from_conv_function, from_raw_parts, calc, linear_interpolation_between_bins"]}
{"id": "C66", "title": "Conversions of lookup tables preserve what they represent", "statement": "to_complex of a real table gives a table with the same values as complex numbers, the same delta and symmetry, which evaluates to the same function; to_real gives the real parts; to_real undoes to_complex. fft of a table of f gives the table of the spectrum of f (bin k is the sum of f(m*delta)*exp(-2*pi*i*k*m/n), zero frequency in the middle), fft of a real table the magnitudes of that spectrum, and ifft undoes fft (values, delta and symmetry). None of them panics.", "quantifier": "every table, every schedule of the worker threads, every FFT back end which computes the discrete Fourier transform", "why_tests_cant": "The spectra are sums over tables of arbitrary length; tests check one raised cosine table against recorded numbers.", "anchors": ["vector/src/conv_types.rs: to_complex, to_real, fft, ifft"]}
{"id": "C67", "title": "Sinc and raised cosine are the documented filters in both domains", "statement": "SincFunction is sin(pi x)/(pi x), RaisedCosineFunction(b) the raised cosine with roll-off b: continuous, symmetric, 1 at zero and 0 at every other integer (no intersymbol interference), also at the removable singularities of the formula. Their frequency responses are symmetric, lie between 0 and 1, are 1 up to 1-b and 0 from 1+b on, fall monotonously and without jumps (b > 0) in between, and satisfy the Nyquist criterion H(1+d)+H(1-d)=1. Impulse response and frequency response are a Fourier transform pair. b = 0 is the sinc function.", "quantifier": "every real argument, every roll-off in (0, 1] (the pointwise facts: every positive roll-off)", "why_tests_cant": "Continuity, symmetry and the transform integral are statements about uncountably many arguments.", "anchors": ["vector/src/conv_types.rs: SincFunction, RaisedCosineFunction"]}
{"id": "C68", "title": "The C facade reports how every operation ended", "statement": "A C function which works on a vector gives back the vector which the library operation left, the other vectors unchanged, and a code: 0 if the operation succeeded, -1 if it was not valid for the type of the vector, otherwise the documented number of the error; different outcomes have different codes. Scalar results come with the same codes and are zero after an error; statistics arrays are filled from their start or left alone. A call panics only if the library operation does.", "quantifier": "every exported function with a result, every library behind the facade, all vectors, buffers and operands", "why_tests_cant": "There are more than a hundred functions, and the codes depend on what an arbitrary operation does to arbitrary vectors.", "anchors": ["interop/src/lib.rs: convert_vec, trans_vec, convert_scalar, convert_void, translate_error, get_error_marker", "interop/src/facade32.rs", "interop/src/facade64.rs"]}
{"id": "C69", "title": "Every C function calls the operation it is named after, with its arguments", "statement": "A C function calls the library operation of the same name (up to the words real, complex, vector and custom which tell overloads apart), and passes the arguments in order: window, padding and response codes stand for what is documented, callbacks get the data pointer which was passed with them, pairs of numbers are complex numbers, factors keep their value. complex_divide divides. All functions can be linked.", "quantifier": "every exported function and every combination of arguments with a documented meaning", "why_tests_cant": "The arguments (numbers, callbacks, codes) range over infinite sets; a swapped argument in one of a hundred wrappers is invisible to tests of the others.", "anchors": ["interop/src/facade32.rs", "interop/src/lib.rs: translate_to_window_function, translate_to_real_convolution_function, translate_to_real_frequency_response, translate_to_padding_option, ForeignWindowFunction, ForeignRealConvolutionFunction, ForeignComplexConvolutionFunction"]}
{"id": "C70", "title": "Handles of the C facade: memory safety, no aliasing and no leaks", "statement": "A C program which uses every handle only as the function signatures allow (a handle which was passed by value is gone, the handle which comes back replaces it, no handle twice in a call which takes over or changes it) never touches freed memory, and behaves exactly like a program whose variables hold the vectors themselves: different variables never influence each other. Every vector which was created and deleted (or handed over) is freed; if no variable holds a vector then no memory is in use.", "quantifier": "all C programs of any length, all libraries behind the facade, all sound allocators", "why_tests_cant": "Quantifies over all call histories and all address assignments of the allocator.", "anchors": ["interop/src/lib.rs: InteropVec", "interop/src/facade32.rs: signatures of all exported functions"]}
{"id": "C71", "title": "Creating and accessing vectors through the C facade", "statement": "A new vector holds the initial value length times and has the number space, domain, sampling distance and core limits which were asked for. set_value changes one number, get_value reads it back, the queries tell number space, domain, length, points and delta, and the data pointers show the numbers. overwrite_data replaces the first numbers and keeps the others; set_len keeps the common prefix; an index out of range terminates the program instead of touching memory.", "quantifier": "all vectors, lengths, indices, values and settings", "why_tests_cant": "needs all contents, lengths and indices", "anchors": ["interop/src/facade32.rs: new32, new_with_performance_options32, new_with_detailed_performance_options32, get_value32, set_value32, is_complex32, get_domain32, get_len32, set_len32, get_points32, get_delta32, data32, complex_data32, get_allocated_len32, overwrite_data32, clone32"]}
{"id": "C72", "title": "Programs with several vectors compute functions of the signals alone", "statement": "A program is a sequence of calls on any number of vectors: all operations of C53 and, in addition, elementary operations, convolve_signal and correlate with another vector as operand, convolution with a function, frequency responses, all interpolations, windowed transforms, prepare_argument, multiply_complex_exponential, get_* with destinations, set_real_imag, set_mag_phase, split_into, merge, sums, dot products, statistics, statistics_split, map_aggregate and clone. Wherever the environment of every call is one which its single-function property accepts, the program never panics, every schedule of the worker threads gives the same vectors and the same returned values (results, errors and numbers), some schedule finishes, and all vectors and returned values are those which a specification computes from the signals alone - numbers, domain, sampling distance - without storages, buffers, registers, addresses, settings or workers. Operands which the library rejects (length, meta data) leave all vectors unchanged and are reported. Two programs which differ only in the environment have the same observable results.", "quantifier": "all programs of any length, all vectors, all operands, all storages, buffers, register types, data addresses, core settings and all interleavings of the worker threads of every call", "why_tests_cant": "the result of a call depends on the history through stale storage, buffer contents and capacities; tests run a few fixed sequences on one machine configuration", "anchors": ["vector/src/vector_types/mod.rs: DspVec", "vector/src/vector_types/general/elementary.rs", "vector/src/vector_types/time_freq/convolution.rs", "vector/src/vector_types/time_freq/interpolation.rs", "vector/src/vector_types/complex/complex_to_real.rs", "vector/src/vector_types/general/data_reorganization.rs"]}
{"id": "C73", "title": "Rounding errors of sums and dot products are bounded", "statement": "If every addition, subtraction and multiplication has a relative error of at most u (the standard model of floating point arithmetic: no overflow or underflow), then `sum`, `sum_sq` and `dot_product` of n numbers with registers of w numbers return a value whose error is at most ((1+u)^(n/w+2w+1+e) - 1) times the sum of the absolute values of the summands, where e is the number of roundings of one summand (0, 1 for products, 2 for parts of complex products); `sum_prec`, `sum_sq_prec` (f64) and `dot_product_prec` have an error which does not grow with n as long as n u is at most one percent (10u, 12u and (1+8u)(1+u)^(2w+2)-1 times the sum of the absolute values). The f32 versions of `sum_prec` have the error of a plain f64 sum. The same holds for the real and the imaginary parts of complex vectors. Without any assumption about the arithmetic, the results use every number exactly once in additions which are at most that deep.", "quantifier": "every rounding with relative error u, every real or complex vector and operand, every register type, address, settings and order of the workers", "why_tests_cant": "Rounding errors depend on the data and on the order of the additions; tests compare a few values with a tolerance.", "anchors": ["vector/src/vector_types/general/statistics.rs: sum_real, sum_sq_real, sum_complex, sum_sq_complex", "vector/src/vector_types/general/dot_products.rs: dot_product_real, dot_product_complex, dot_product_prec_real, dot_product_prec_complex", "vector/src/vector_types/general/precise_stats.rs: sum_prec, sum_sq_prec", "vector/src/vector_types/general/mod.rs: kahan_sum, kahan_sumb"]}
{"id": "C74", "title": "Results are reproducible bit for bit", "statement": "Whatever the arithmetic of the number type is (rounding, overflow, no associativity): elementary operations with a number or another vector, sqrt, square, and the trigonometric and power functions give at every position the operation of the number type applied to the numbers at this position, so the result does not depend on the register type, the address of the data, the settings or the scheduling of workers. (Complex multiplication and division: up to the order of the operands of an addition or multiplication; `offset` by a real number adds a zero to imaginary parts.) `abs` and `magnitude` are equally independent of where a number is stored. Sums, dot products and statistics do not depend on the settings and the order in which workers finish, nor on the machine.", "quantifier": "every number type with any operations, all vectors, register types, addresses, settings and schedules", "why_tests_cant": "Floating point results depend on evaluation order; a test runs on one machine, one alignment and one interleaving.", "anchors": ["vector/src/vector_types/mod.rs: simd_real_operation, simd_complex_operation", "vector/src/vector_types/general/elementary.rs", "vector/src/vector_types/real/real_ops.rs: abs", "vector/src/vector_types/complex/complex_to_real.rs: magnitude_b", "vector/src/vector_types/general/statistics.rs: sum_real", "vector/src/simd_extensions/mod.rs"]}
{"id": "C75", "title": "Indexing: every access stays inside of the vector", "statement": "data(i), data(range) and the index operators show exactly the numbers of the vector at these positions and panic for an index or a range which is not inside of the vector - never cells of the storage behind its end. Writing through data_mut changes exactly these positions; all other numbers, the cells behind the vector, the length and the meta data stay. For complex vectors point i consists of numbers 2i and 2i+1, reading and writing points is reading and writing these numbers. datac shows nothing if the vector is not complex.", "quantifier": "all vectors, indices, ranges of all four kinds and everything a caller can write", "why_tests_cant": "needs all lengths, capacities, indices and ranges; storages are longer than their vectors only after some histories", "anchors": ["vector/src/vector_types/vec_impl_and_indexers.rs: FloatIndex, FloatIndexMut, ComplexIndex, ComplexIndexMut, Index, IndexMut"]}
{"id": "C76", "title": "Builds without threads have the same results", "statement": "Without the feature std all work is done by the calling thread. Every executor of such a build gives what the threaded executor gives with one core, for every closure and also where it panics; for element-wise operations, operations from a source to a target and reductions over a commutative monoid it gives what the threaded one gives for all settings, schedules and completion orders.", "quantifier": "all closures, data, step sizes, complexities, settings and schedules", "why_tests_cant": "the test suite runs one build; schedules can not be enumerated", "anchors": ["vector/src/multicore_support/no_threading.rs: Chunk", "vector/src/multicore_support/threading.rs: Chunk"]}
{"id": "C77", "title": "The remaining methods of matrices do with every row what the method of the vectors does", "statement": "Interpolation (interpolatef, interpolatei, interpolate, interpft, interpolate_lin, interpolate_hermite), preparation of a correlation, correlation, convolution with a function or a vector, multiplication with a frequency response or a complex exponential, windowed_fft, windowed_ifft, the remaining symmetric transforms and the element-wise operations of a matrix change the signal of every row exactly as the method of vectors with the same name changes that signal, with one buffer which is handed from row to row. A method which returns a result stops at the first row which fails: this error is returned, the rows before it are changed, this row and those behind it are not. (With an operand matrix of fewer rows the surplus rows stay as they are.)", "quantifier": "All matrices of both kinds with any number of rows of any lengths and types, all such methods and arguments, all buffers which are large enough for every row, all multicore settings, addresses and schedules of every row.", "why_tests_cant": "Rows, lengths and schedules are unbounded; which row fails and what its neighbours hold by then depends on the whole matrix.", "anchors": ["matrix/src/time_freq.rs: interpolatef, interpolatei, interpolate, interpft, interpolate_hermite, interpolate_lin, prepare_argument, correlate, convolve, convolve_signal, multiply_frequency_response, windowed_fft, windowed_ifft, windowed_sfft, plain_sifft, sifft, windowed_sifft", "matrix/src/complex.rs: multiply_complex_exponential", "matrix/src/general/elementary.rs: add, add_smaller, add_vector"]}
{"id": "C78", "title": "Calibration of the multi core thresholds", "statement": "Whatever times the calibration measures, the thresholds stay within fixed limits (no threads below 5000 numbers, two at the latest from 100000 and all cores from 200000 numbers on, operations of large complexity not later than those of medium complexity), and the reported code tells whether they are the defaults and why (2: one core, 1: a measurement took less than a microsecond, 3 or 4: no line or no crossing found). On a machine with linear times where threads pay for large vectors, threads are only used where they pay, and are used from twice the crossing on. If threads never pay none are spawned.", "quantifier": "all clocks, regressions and numbers of cores; for the last parts all machines with linear times and all vector lengths", "why_tests_cant": "Tests see only the times of the machine they run on.", "anchors": ["vector/src/multicore_support/threading.rs: calibrate, attempt_calibrate, measure, proportional_regression, intersection, limit, print_calibration"]}
{"id": "C79", "title": "The approximated functions keep their documented accuracy", "statement": "The functions sin_approx, cos_approx, exp_approx, ln_approx, log_approx, expf_approx and powf_approx replace every element of a real vector by a number which differs from the value of the function by no more than documented: 1E-6 for sin and cos, 1 percent for exp (arguments between -10 and 10), ln and log (arguments above 1), expf and powf. This holds for each element, wherever it lies in the vector, on every machine, for all settings and schedules; length and meta data stay; the logarithm of a number which is not positive is not a number; complex vectors are marked as invalid.", "quantifier": "all real vectors whose elements are in the documented range, positions, number formats, SIMD widths, alignments, settings, schedules", "why_tests_cant": "the accuracy is a bound over all real arguments; tests sample a few", "anchors": ["vector/src/simd_extensions/approximations.rs: SimdApproximations for Reg32/Reg64 (ln_approx, exp_approx, sin_approx, cos_approx, sin_cos_approx)", "vector/src/simd_extensions/approx_fallback.rs", "vector/src/vector_types/real/real_ops.rs: ApproximatedOps"]}
{"id": "C80", "title": "Vectors can be taken apart again", "statement": "getf, get and into give back what the vector holds: getf and get return the storage with the number of valid elements (real numbers, or points for complex vectors), and the first so many elements are exactly the data of the vector; into() gives a Vec of exactly the data, as numbers for real and as complex numbers for complex vectors. No call panics, and memory which changes its owner is released with the size it was requested with. Building a vector from complex numbers and taking it apart gives the same numbers.", "quantifier": "all vectors, storages, capacities, lengths (also zero), number spaces", "why_tests_cant": "the effect depends on the capacity of the storage, which the user does not control, and on every length", "anchors": ["vector/src/vector_types/to_from_vec_conversions.rs: FromVectorFloat, FromVector, Clone", "vector/src/vector_types/support_std.rs: From<DspVec> for Vec, interleaved_vec_to_complex_vec, complex_vec_to_interleaved_vec", "vector/src/vector_types/support_core.rs: FromVector"]}
{"id": "C81", "title": "A C program computes with signals", "statement": "A C program which only passes handles it owns and calls the exported functions with arguments they accept never runs into undefined behaviour or a panic; the codes and numbers it gets back are those which one computes by hand from the signals its handles stand for, call by call, until the vectors are deleted; processor, memory addresses, allocator, calibration, number of threads, thread timing and performance options make no difference; and a program which deletes its vectors leaves no memory behind.", "quantifier": "all C programs (finite sequences of creations, deletions and calls of the described exported functions), all vector lengths and contents, all allocators, all schedules of the workers, all machines", "why_tests_cant": "the number of programs is infinite, and memory addresses, thread interleavings and processor features can not be enumerated in a test", "anchors": ["interop/src/facade32.rs: new32, delete_vector32, add32, get_value32", "interop/src/lib.rs: convert_vec, convert_scalar, convert_void, trans_vec, InteropVec", "vector/src/vector_types/time_freq/freq_to_time.rs: plain_ifft"]}
{"id": "C82", "title": "Statistics with floating point numbers", "statement": "Whatever rounding errors the arithmetic makes, statistics and statistics_prec of a non-empty vector report its number of points and its first smallest and first largest point exactly; each column of statistics_split(k) and statistics_split_prec(k) is exactly what the unsplit call reports for a vector with the points i, i+k, i+2k, ...; precise statistics of f32 vectors are the statistics of the same numbers as f64; and the errors of sum, average and rms are bounded: proportional to the number of points for statistics, and by a few units in the last place times the sum of the magnitudes, independent of the number of points, for statistics_prec. The rms of a complex vector is a square root of complex numbers: the square of what is reported differs from the mean of the squares of the points by a relative error, with respect to the mean of their squared magnitudes, which is proportional to the number of points for statistics and independent of it for statistics_prec.", "quantifier": "all vectors, lengths and contents, all k up to 16, all roundings (also without any law for the operations where no error bound is claimed), all settings", "why_tests_cant": "floating point errors depend on the values and on their order; the bound has to hold for all of them", "anchors": ["vector/src/vector_types/general/statistics.rs: Stats::add, merge, statistics, statistics_split", "vector/src/vector_types/general/precise_stats.rs: PreciseStats::add_prec, statistics_prec, statistics_split_prec"]}
{"id": "C83", "title": "The laws of the Fourier transform hold for programs", "statement": "fft puts frequency i - n/2 of the signal (the discrete Fourier transform) at point i, plain_fft frequency k at point k, and ifft computes the normalised inverse, so ifft undoes fft and different signals have different spectra. Programs which the laws of the Fourier transform say are equal give equal vectors: adding or subtracting two signals before or after fft; scaling before or after fft; conj then fft or, for an odd number of points, fft then conj and reverse (spectra of real signals are conjugate symmetric); convolve_signal with a signal of the same odd number of points or multiplying the spectra after ifft_shift of the impulse response (for all numbers of points the product has the linear phase of the centre (n-1)/2 of the impulse response); zero_pad to m times the points, plain_fft and decimatei(m) or plain_fft alone; swap_halves does not change the magnitudes of the spectrum. Point 0 of plain_fft is what sum returns, sum of the spectrum is n times the first point, magnitude_squared and sum of the spectrum give n times the energy of the signal (Parseval), multiply_complex_exponential moves the spectrum, zero_interleave repeats it, decimatei folds it.", "quantifier": "all signals (real and complex, all numbers of points and contents), storages, buffers, registers, addresses, settings and schedules which the calls accept; exact arithmetic, the FFT library computes the discrete Fourier transform", "why_tests_cant": "the laws relate different programs on all signals of all lengths; a test compares a few signals up to a tolerance", "anchors": ["vector/src/vector_types/time_freq/time_to_freq.rs: plain_fft, fft", "vector/src/vector_types/time_freq/freq_to_time.rs: plain_ifft, ifft", "vector/src/vector_types/time_freq/convolution.rs: convolve_signal", "vector/src/vector_types/general/data_reorganization.rs: swap_halves, zero_pad, zero_interleave", "vector/src/vector_types/complex/complex_ops.rs: multiply_complex_exponential, conj"]}
{"id": "C84", "title": "Convolution with floating point numbers", "statement": "When convolve_signal computes in time domain (all real vectors, and complex vectors outside of the lengths for which it uses the FFT), every number of the result differs from the exact circular convolution of the given numbers by at most ((1+u)^(m+w+3) - 1) times the sum of the absolute values of the products which belong to it (complex: m+w+4 and the real products of the real/imaginary part), where m is the number of points of the impulse response, w the number of lanes of a register and u the unit roundoff; without registers m+1 (m+2). Results computed with different register types, numbers of threads or without SIMD therefore differ only by rounding errors. Complex vectors for which it uses the FFT: if the results of the FFT library have a relative error of at most e in the Euclidean norm, every point of the result differs from the exact one by at most the larger of (1+e)^2(1+e sqrt(F))(1+3u)(1+u) - 1 (F: the length of the transforms) and sqrt(2)((1+u)^(m+w+4) - 1), times the Euclidean norm of the signal and the sum of the absolute values of the response (for lengths without a gap, see C37).", "quantifier": "all real and complex vectors and impulse responses, lengths and contents, all register types, aligned addresses, settings, schedules and buffers, all roundings with relative error u (no overflow and underflow)", "why_tests_cant": "rounding errors depend on all values and on the order of the additions, which the lane in which a product is accumulated decides; the bound has to hold for all of them", "anchors": ["vector/src/vector_types/time_freq/mod.rs: convolve_signal_scalar, convolve_signal_simd_impl, create_shifted_copies, convolve_iteration", "vector/src/vector_types/time_freq/convolution.rs: convolve_signal"]}
{"id": "C85", "title": "Convolution and FFT on a GPU", "statement": "With the feature use_gpu, convolve_signal of a long vector (more than 10000 numbers) whose impulse response does not use SIMD registers has the result of the CPU: the circular convolution of the vector with the response, with the same length and meta data, in whatever order the GPU executes its work items and whatever its new buffers contained before; if the vector is hardly longer than the response, or not that long, or the arguments are rejected, the result is the one of the CPU. The FFT of the GPU is used only for complex vectors whose number of numbers is a power of two. (Proved violations: the end of the vector is never computed and holds old contents of buffers; complex vectors in single precision use a wrong sign in the complex product; complex vectors in double precision mix real and imaginary parts for responses with an odd number of points.)", "quantifier": "all vectors and impulse responses (all lengths up to 2^24 numbers of the response and all contents), all orders of the work items, all contents of the buffers; exact arithmetic", "why_tests_cant": "no test machine executes all orders of work items or has all contents of fresh GPU memory, and the existing test compares only one random vector per run, only if a device exists", "anchors": ["vector/src/gpu_support/ocl/mod.rs: gpu_convolve_vector, prepare_impulse_response, is_supported_fft_len", "vector/src/gpu_support/ocl/ocl_kernels32.rs: CONV_KERNEL", "vector/src/gpu_support/ocl/ocl_kernels64.rs: CONV_KERNEL", "vector/src/vector_types/time_freq/convolution.rs: convolve_signal", "vector/src/vector_types/time_freq/mod.rs: convolve_vector_range"]}
{"id": "C86", "title": "The laws of the convolution hold for programs", "statement": "For programs which filter signals with convolve_signal, in every environment which accepts them (buffers, alignments, numbers of threads, schedules, the implementation which the library selects for the lengths): the order of two filters does not matter, whatever their lengths; two filters can be combined to one by convolving one with the other if it has as many points as the signal; signal and response can be exchanged if they have the same number of points; filtering is linear in the signal and in the response (sums, differences, factors); it commutes with swap_halves/fft_shift and ifft_shift of the signal; with an odd response, reversing signal and response reverses the result; conjugating both conjugates the result; real signals give the same as if they were filtered as complex signals; the centred impulse changes nothing; the sum of the result is the product of the sums; and with an odd response the dot product of a filtered signal with another one is the dot product of the signal with the other one filtered with the reversed response.", "quantifier": "all signals, responses and lengths which convolve_signal accepts, all programs with these calls, all environments which accept them, all schedules; real numbers", "why_tests_cant": "the laws relate infinitely many pairs of programs for all signals, and the library switches between implementations with different lengths", "anchors": ["vector/src/vector_types/time_freq/convolution.rs: convolve_signal", "vector/src/vector_types/vec_impl_and_indexers.rs", "vector/src/vector_types/general/elementary.rs: add, sub, scale", "vector/src/vector_types/general/data_reorganization.rs: reverse, swap_halves"]}
{"id": "C87", "title": "Accuracy of the elementary operations with floating point numbers", "statement": "With numbers whose operations are rounded with a relative error of at most u: add, sub, mul, div (also with a shorter operand which is repeated), offset, scale and square of real vectors give in every number the exact result rounded once. For complex vectors the distance of every point to the exact result is at most u (add, sub, offset), 3u (mul, scale, square) and 6u (div) relative to the exact result. magnitude_squared has a relative error of two roundings. Every number of diff is the exact difference rounded once; point i of cum_sum is the exact sum of the points 0..i up to the error of i additions, relative to the sum of the absolute values. Dividing again by what was multiplied gives the numbers back up to the relative error of two roundings; after adding and subtracting the same numbers the error is relative to the intermediate sum.", "quantifier": "all rounded arithmetics (u at most 1/1000 for complex vectors), all vectors, operands, register types, addresses, settings and schedules", "why_tests_cant": "tests compare with a tolerance for a few inputs; a bound for the error needs all inputs, and the error of the complex division depends on the relation of both parts", "anchors": ["vector/src/vector_types/general/elementary.rs: add, sub, mul, div, add_smaller, offset, scale", "vector/src/vector_types/general/diff_sum.rs", "vector/src/vector_types/complex/complex_to_real.rs: magnitude_squared", "vector/src/vector_types/general/trigonometry_and_powers.rs: square"]}
{"id": "C88", "title": "The laws of the correlation hold for programs", "statement": "For programs which prepare one of two complex time signals with n >= 2 points each with prepare_argument_padded and then correlate the other one with it, in every environment which accepts them: the result has 2n-1 points in time domain, and point r is the sum of x(k+l) conj(y(k)) for the lag l = r-(n-1). If both contain the same pulse, at position p (times a complex gain) and at position q, the magnitude has its only maximum at the point of the lag p-q, and the value there is the gain times the energy of the pulse; in particular the autocorrelation has its only maximum in the middle. Exchanging the two signals conjugates and reverses the result; correlation is linear in the signal (sums, differences, complex factors), also if the argument is prepared only once, and factors of the argument come out conjugated; no value exceeds the product of the energies; the point of the lag zero is the dot product with the conjugated argument; the sum of the result is the sum of the signal times the conjugated sum of the argument.", "quantifier": "all pairs of complex signals with the same number of points, all pulses, positions and gains, all transforms which compute the DFT, all environments which accept the programs, all schedules; real numbers", "why_tests_cant": "the laws relate infinitely many pairs of programs for all signals and lags; finding a delay relies on the maximum being unique for every pulse", "anchors": ["vector/src/vector_types/time_freq/correlation.rs: prepare_argument_padded, correlate", "vector/src/vector_types/general/elementary.rs", "vector/src/vector_types/general/dot_products.rs"]}
{"id": "C89", "title": "The laws of the statistics hold for programs", "statement": "For real signals with at least one point: the average times the number of points is the sum, the square of the root mean square times the number of points is the sum of squares, both agree with sum and sum_sq; minimum and maximum are points of the signal with the first position at which they occur; the average lies between them, its absolute value is at most the root mean square and this is at most the largest absolute value. offset moves average, minimum and maximum and leaves the positions; scale multiplies all of them, with a negative factor it exchanges minimum and maximum with their positions. After the average is removed the average is zero and the mean square is the variance r^2-a^2, which is zero exactly for constant signals; scale(1/r) gives the root mean square one; reverse, swap_halves, fft_shift and ifft_shift change only the positions; the average of square is the mean square; sums and averages of a sum of two signals add, its root mean square is at most the sum of both. statistics_split(k) describes exactly the vectors which split_into gives with k targets, its counts and sums add up to those of statistics, and the first minimum at position i is the one of part i mod k at position i/k. map_aggregate with +, min and max gives the sum, the minimum and the maximum. For complex signals sum and average have the sums and averages of the real and imaginary parts as parts, and minimum and maximum stand where the vector of the magnitudes has them.", "quantifier": "all real and complex signals with at least one point, all constants, all environments and schedules; real numbers", "why_tests_cant": "the laws relate infinitely many pairs of programs for all signals; the merging of the partial statistics of the workers must not disturb any of them", "anchors": ["vector/src/vector_types/general/statistics.rs: statistics, statistics_split", "vector/src/vector_types/general/precise_stats.rs: statistics_prec", "vector/src/vector_types/general/mapping.rs: map_aggregate", "vector/src/vector_types/general/data_reorganization.rs: reverse, swap_halves, split_into", "vector/src/vector_types/general/elementary.rs: offset, scale, add"]}
{"id": "C90", "title": "Infinities and NaN propagate as arithmetic says", "statement": "For data with infinities and NaN: sum, sum_sq and dot_product (real and complex, part by part) are NaN exactly when a NaN or infinities of both signs occur among the terms, otherwise the infinity which occurs, otherwise the sum of the numbers; cum_sum has this sum at every position; offset and scale change each element on its own, so a NaN stays where it is (scaling with zero turns infinities into NaN); statistics count every element and report the first smallest and largest elements other than NaN. sum_prec, sum_sq_prec, statistics_prec of f64 data give the same sums unless a special value stands before the last element, and NaN in this case. Memory behind the valid data has no influence even if it holds NaN. Complex vectors: real and imaginary parts are added separately; the minimum and the maximum are the first elements with the least and the greatest norm, elements whose norm is NaN are passed over, and an element with an infinite part has an infinite norm. statistics_split and statistics_split_prec report each column as if it were a vector of its own: a special value in one column has no influence on the others. dot_product_prec gives what dot_product gives, as long as all products are numbers; with special values it must give the same, too.", "quantifier": "all vectors with infinities and NaN in any positions, all lengths, alignments, register types, settings, schedules; exact arithmetic for numbers", "why_tests_cant": "special values can stand in any position of any register, edge or chunk; which position is harmful depends on the whole path of the data", "anchors": ["vector/src/vector_types/general/statistics.rs: sum, sum_sq, statistics", "vector/src/vector_types/general/precise_stats.rs: sum_prec, sum_sq_prec, statistics_prec", "vector/src/vector_types/general/mod.rs: kahan_sum", "vector/src/vector_types/general/dot_products.rs: dot_product", "vector/src/vector_types/general/diff_sum.rs: cum_sum", "vector/src/vector_types/general/elementary.rs: offset, scale"]}
{"id": "C91", "title": "The transforms and the interpolation reproduce band limited signals", "statement": "Every signal with n points at the distance x consists of the points of exactly one wave, a sum of oscillations whose frequencies are multiples of 1/(n x) between minus and plus half of the sampling rate. fft shows the amplitudes of this wave in the order of the frequencies, times n. interpft and interpolate without a response give N points of the same wave in the same period, from the start time plus the delay, with the new sampling distance n x / N; if N is smaller than n the wave loses the frequencies which N points cannot show. interpolate with a response multiplies each amplitude with the response at its frequency. interpolatei by m gives the points of the wave with the amplitudes repeated after every n frequencies, each times the response; with an ideal low pass it gives m times as many points of the same wave. For real vectors the real parts remain. A delay with an odd number of points which is not a multiple of the sampling distance is wrong (C57).", "quantifier": "all real and complex signals, amplitudes, start times, sampling distances, numbers of points n and N, delays, factors m, responses which fit (C57, C58), storages, buffers, settings and schedules; real numbers and a transform which computes the DFT", "why_tests_cant": "the claim is about infinitely many waves and values between the points; a test compares a few signals with a tolerance", "anchors": ["vector/src/vector_types/time_freq/interpolation.rs: interpft, interpolate, interpolatei", "vector/src/vector_types/time_freq/time_to_freq.rs: fft"]}
{"id": "C92", "title": "Programs of inverse calls restore a vector", "statement": "These programs end with the numbers, number space, domain and sampling distance with which they started: reverse twice; fft_shift and ifft_shift in either order; swap_halves twice for an even number of points; diff_with_start and cum_sum in either order; zero_interleave and decimatei by the same factor; zero_pad at the end and resize; offset and scale with their inverses; conj twice; apply_window and unapply_window of a window without zeros; to_complex and to_real; functions and their inverses (sin/asin, exp/ln, powf, ... in their ranges), square and sqrt; multiply_complex_exponential with opposite arguments; add and sub, mul and div of a vector without zeros, also with a smaller operand; get_real_imag and set_real_imag, get_mag_phase and set_mag_phase; split_into and merge, merge and split_into; interpft and interpolate of complex vectors, or real vectors with an odd number of points, to more points and back; interpft by a whole factor and decimatei give the old numbers. A call changes no other vectors than those it writes, so a copy protects a vector from any program. (interpft of real vectors with an even number of points and back changes the highest frequency.)", "quantifier": "all signals of any length, storages, buffers, settings, schedules, alignments, factors, windows, operands, and all programs between the copies; real numbers", "why_tests_cant": "the claim is about all signals and about all programs between taking a copy and restoring it", "anchors": ["vector/src/vector_types/general/data_reorganization.rs: reverse, swap_halves, split_into, merge, zero_interleave, zero_pad", "vector/src/vector_types/general/diff_sum.rs: diff_with_start, cum_sum", "vector/src/vector_types/general/elementary.rs: add, sub, mul, div, offset, scale", "vector/src/vector_types/general/trigonometry_and_powers.rs: sin, asin, sqrt, square", "vector/src/vector_types/time_freq/interpolation.rs: interpft, interpolate", "vector/src/vector_types/complex/complex_ops.rs: conj", "vector/src/vector_types/complex/complex_to_real.rs: get_real_imag, get_mag_phase"]}
{"id": "C93", "title": "Infinities and NaN in a convolution", "statement": "convolve_signal in time domain of data with infinities and NaN: every value is the sum of the products of its own points (part by part for complex vectors): NaN exactly if a product is NaN or infinities of both signs occur, otherwise the infinity which occurs, otherwise the sum of the numbers; a special value has no influence on values to which it does not belong. With registers (vectors with more than 1000 numbers, responses with 12 to 202 numbers) this is violated exactly for the values of which a point lies in a register with a special value which does not belong to it: they become NaN.", "quantifier": "all real and complex vectors with infinities and NaN in any positions, responses, register types, accepted addresses, settings, schedules and buffers; exact arithmetic for numbers", "why_tests_cant": "which values are affected depends on the position of the special value relative to registers, window and address", "anchors": ["vector/src/vector_types/time_freq/convolution.rs: convolve_signal", "vector/src/vector_types/time_freq/mod.rs: convolve_signal_scalar, convolve_signal_simd, create_shifted_copies"]}
{"id": "C94", "title": "Windows, complex exponentials and magnitudes with floating point numbers", "statement": "With rounded arithmetic and a mathematical library of limited accuracy: multiply_complex_exponential multiplies point i with exp(j (a d i + b d)) up to an error which grows with i as a power of (1 + error of sin and cos)(1 + 3 roundings) plus i times the rounding of the angle, and this growth does occur; abs and magnitude_b are right up to two and three roundings whether registers are used or not; the triangular, Hamming and Blackman-Harris windows are right up to a fixed number of units for every length; apply_window multiplies with the window value up to its error and one (complex: three) roundings, and unapply_window gives every number back up to three roundings.", "quantifier": "all vectors, every rounding with a relative error (f32, f64), libraries of every accuracy, window lengths, schedules, register types, accepted addresses and buffers; no overflow and no underflow", "why_tests_cant": "error bounds over all inputs and lengths; tests compare a few points with a tolerance", "anchors": ["vector/src/vector_types/complex/complex_ops.rs: multiply_complex_exponential", "vector/src/window_functions.rs", "vector/src/vector_types/time_freq/time.rs: apply_window, unapply_window", "vector/src/vector_types/complex/complex_to_real.rs: magnitude_b", "vector/src/vector_types/real/real_ops.rs: abs"]}
{"id": "C95", "title": "Transforms with floating point numbers", "statement": "With floating point arithmetic the transforms keep the accuracy of the FFT library. If the library's results have a relative error of at most e (in the Euclidean norm of all points), then fft gives the exact discrete Fourier transform, with the zero frequency in the middle, up to the relative error e (and e cannot be replaced by anything smaller); the size of the spectrum is sqrt(n) times the size of the points up to that error; ifft gives the exact inverse transform up to (1+e)(1+u)^2-1 for two roundings of relative error u; ifft after fft gives back the points up to (1+e)^2(1+u)^2-1; and a filter in the frequency domain (fft, mul with a spectrum which amplifies no frequency by more than M, ifft) gives the exactly filtered points up to M((1+e)^2(1+3u)(1+u)^2-1) times the size of the points. The errors do not depend on the register type, the number of threads, the schedule or the buffer.", "quantifier": "all vectors, rounding functions with relative error u, FFT libraries with relative error e, register types, addresses, settings, schedules and buffers; for ifft all numbers of points which the floating point type can represent", "why_tests_cant": "a bound of an error over all inputs and roundings; tests compare with a tolerance which was chosen to fit", "anchors": ["vector/src/vector_types/time_freq/time_to_freq.rs: fft, plain_fft", "vector/src/vector_types/time_freq/freq_to_time.rs: ifft, plain_ifft", "vector/src/vector_types/time_freq/mod.rs: fft", "vector/src/vector_types/general/elementary.rs: mul, scale", "vector/src/vector_types/time_freq/freq.rs: fft_shift, ifft_shift"]}
{"id": "C96", "title": "Cross correlation with floating point numbers", "statement": "With floating point arithmetic and an FFT library whose results have a relative error of at most e (in the Euclidean norm), prepare_argument_padded of a complex signal c with n >= 2 points and correlate of a signal a with n points give the cross correlation for all lags from -(n-1) to n-1 (in this order): every point differs from the exact sum of a[k + lag] * conj(c[k]) by at most (((1+e)(1+u))^2 (1 + ((1+e)(1+u)-1) sqrt(2n-1)) (1+3u) (1+u)^2 - 1) times the Euclidean norm of a times the sum of the absolute values of c, where u is the relative error of one rounding. The sampling distance of the signal is kept. conj changes no point by more than one rounding, also where registers multiply with (1, -1). Nothing depends on the register type, the address, the settings, the schedule or the buffers.", "quantifier": "all pairs of complex signals of the same length, rounding functions with relative error u, FFT libraries with relative error e, register types, addresses, settings, schedules and buffers; 2n-1 has to be a number of the floating point type", "why_tests_cant": "a bound of an error over all inputs and roundings; tests compare a few correlations with a tolerance which was chosen to fit", "anchors": ["vector/src/vector_types/time_freq/correlation.rs: correlate, prepare_argument, prepare_argument_padded", "vector/src/vector_types/complex/complex_ops.rs: conj", "vector/src/vector_types/time_freq/time_to_freq.rs: plain_fft", "vector/src/vector_types/time_freq/freq_to_time.rs: plain_ifft"]}
{"id": "C97", "title": "Transforms with a window and floating point numbers", "statement": "With floating point arithmetic, an FFT library whose results have a relative error of at most e (in the Euclidean norm) and a window function which differs from the exact window by at most ew, windowed_fft gives the exact transform of the points multiplied with the window, with the zero frequency in the middle, up to (e (M + d) + d) times the Euclidean norm of the exact transform of the points, where M is the largest window value, d = ew + 3u (M + ew), and u is the relative error of one rounding; with one core and a symmetric window point i is multiplied with window value i, with several workers with the value which the workers take for it. For the Hamming windows of the crate ew is at most twice the error of the cosine of the library and 200 u. windowed_ifft of windowed_fft with the same window and settings gives the points back up to ((1+u)(1+3u)^2 (((1+e)^2 (1+u)^2 - 1) M/m + 1) - 1) times their Euclidean norm, where m > 0 is the smallest and M the largest absolute value of the computed window; the inaccuracy of the window function itself does not count. Nothing depends on the register type, the address, the schedule or the buffer.", "quantifier": "every window function, real or complex signal, number of points which is a floating point number (round trip), FFT library, register type, address, setting, schedule, buffer; no overflow and no underflow", "why_tests_cant": "A test compares with a tolerance chosen for its example; the amplification of the errors of the transforms by the ratio of the window values cannot be seen in one example.", "anchors": ["vector/src/vector_types/time_freq/time_to_freq.rs: windowed_fft", "vector/src/vector_types/time_freq/freq_to_time.rs: windowed_ifft", "vector/src/vector_types/time_freq/time.rs: apply_window, unapply_window", "vector/src/window_functions.rs: HammingWindow"]}
{"id": "C98", "title": "Linear interpolation with floating point numbers", "statement": "With floating point arithmetic interpolate_lin of a real vector with n >= 1 numbers (neighbours differ by at most D, all numbers are at most M) and a factor f > 0 and delay d >= 0 does not panic as long as its last position stays inside of the data in spite of the roundings. The result has round((n-1) f) + 1 numbers, where the product is rounded as the arithmetic does; the last one is exactly the last given number, and number i differs from the value at i / f + d of the line through the numbers by at most u M + ((1+u)^4 - (1+u)) D + ((1+u)^2 - 1)(i / f + d) D.", "quantifier": "all real vectors, factors, delays, buffers and rounding functions with relative error u which are exact for the natural numbers up to the length of the result; no overflow and no underflow", "why_tests_cant": "a bound of an error over all inputs and roundings; the failures need millions of numbers or particular factors", "anchors": ["vector/src/vector_types/time_freq/real_interpolation.rs: interpolate_lin"]}
{"id": "C99", "title": "The laws of the interpolation hold for programs", "statement": "For real signals with at least one point (interpolate_hermite: the number which its specification asks for): interpolate_lin and interpolate_hermite by a whole factor m >= 1 without delay, followed by decimatei by m, restore the vector. The interpolation of a scaled and moved signal (scale, offset) is the scaled and moved interpolation; the interpolation of a sum or difference of two signals with the same number of points is the sum or difference of their interpolations, for all factors and delays. The points of a line stay on the line: by the factor m the slope is divided by m, and a delay d of interpolate_hermite moves the points along the line, also in the first and last interval. interpolate_lin never exceeds bounds of the signal, interpolate_hermite exceeds them by at most an eighth of their distance, which is sharp (with a delay the last number is excluded). interpolate_hermite is exact for parabolas between the second point and the last but one, with every delay. interpolate_lin by m and then by k is interpolate_lin by m k. Both interpolations by a whole factor without delay commute with reverse.", "quantifier": "all real signals, factors, delays, constants, buffers and schedules which the functions accept (C42, C50); real numbers", "why_tests_cant": "the laws relate infinitely many pairs of programs for all signals and factors; each of them involves the borders of all intervals", "anchors": ["vector/src/vector_types/time_freq/real_interpolation.rs: interpolate_lin, interpolate_hermite", "vector/src/vector_types/time_freq/interpolation.rs: decimatei", "vector/src/vector_types/general/elementary.rs: scale, offset, add, sub"]}
