{
 "claims": [
  {
   "property": "C01",
   "status": "partial",
   "theorems": [
    "Dsp.C01_to_complex_error_violated",
    "Dsp.C01_history_partial",
    "Dsp.C01_constructed_partial",
    "Dsp.C01_rededicate_violated",
    "Dsp.C01_to_complex_violated",
    "Dsp.C01_fixed_buffer_violated",
    "Dsp.C01_plain_sifft_violated",
    "Dsp.C01_inline_violated"
   ],
   "note": "The invariant holds for every history except where the listed _violated theorems show the code breaking it: rededicate_from (&& instead of ||), to_complex's error path, buffers of fixed length, generic constructors without parity check."
  },
  {
   "property": "C02",
   "status": "proved",
   "theorems": [
    "Dsp.C02_resize",
    "Dsp.C02_resize_b",
    "Dsp.C02_inline_violated"
   ],
   "note": "resize and resize_b; the crate-internal inline storage is covered by C44."
  },
  {
   "property": "C03",
   "status": "partial",
   "theorems": [
    "Dsp.C03_static_constructors",
    "Dsp.C03_gen_constructor_partial",
    "Dsp.C03_gen_slice_violated",
    "Dsp.C03_from_partial",
    "Dsp.C03_from_violated",
    "Dsp.C03_to_dsp_vec",
    "Dsp.C03_complex_vec_partial",
    "Dsp.C03_complex_vec_violated",
    "Dsp.C03_complex_slice"
   ],
   "note": "&[T].to_gen_dsp_vec and From<S> miss the parity check; the empty Vec<Complex> panics: C03_..._violated."
  },
  {
   "property": "C04",
   "status": "proved",
   "theorems": [
    "Dsp.C04_interleave",
    "Dsp.C04_set_get"
   ],
   "note": ""
  },
  {
   "property": "C05",
   "status": "proved",
   "theorems": [
    "Dsp.C05_reverse",
    "Dsp.C05_reverse_involutive"
   ],
   "note": ""
  },
  {
   "property": "C06",
   "status": "proved",
   "theorems": [
    "Dsp.C06_swap_halves",
    "Dsp.C06_fft_shift",
    "Dsp.C06_ifft_shift",
    "Dsp.C06_shift_roundtrip"
   ],
   "note": ""
  },
  {
   "property": "C07",
   "status": "proved",
   "theorems": [
    "Dsp.C07_zero_pad",
    "Dsp.C07_surround_two_points"
   ],
   "note": ""
  },
  {
   "property": "C08",
   "status": "partial",
   "theorems": [
    "Dsp.C08_zero_pad_b_partial",
    "Dsp.C08_zero_pad_b_error",
    "Dsp.C08_surround_violated",
    "Dsp.C08_center_violated",
    "Dsp.C08_center_panic_violated",
    "Dsp.C08_center_exact",
    "Dsp.C08_surround_exact",
    "Dsp.C08_zero_pad_b_iff"
   ],
   "note": "Holds for End; Surround differs by one position when an even number of points is added and Center leaks stale buffer contents or panics: C08_..._violated. C08_center_exact and C08_surround_exact describe the result for every stale content, C08_zero_pad_b_iff is the exact condition under which zero_pad_b gives what zero_pad gives."
  },
  {
   "property": "C09",
   "status": "proved",
   "theorems": [
    "Dsp.C09_zero_interleave",
    "Dsp.C09_zero_interleave_b"
   ],
   "note": ""
  },
  {
   "property": "C10",
   "status": "partial",
   "theorems": [
    "Dsp.C10_split_partial",
    "Dsp.C10_split_error",
    "Dsp.C10_merge_partial",
    "Dsp.C10_roundtrip_partial",
    "Dsp.C10_split_violated",
    "Dsp.C10_merge_violated",
    "Dsp.C10_split_exact",
    "Dsp.C10_merge_exact"
   ],
   "note": "Holds for real vectors without unused storage and all complex vectors the code accepts; split_into and merge use the whole storage otherwise: C10_split_violated, C10_merge_violated. C10_split_exact and C10_merge_exact give the exact condition on the storages of real vectors: under it the result is right, otherwise the call panics."
  },
  {
   "property": "C11",
   "status": "proved",
   "theorems": [
    "Dsp.C11_diff",
    "Dsp.C11_cum_sum_undoes_diff",
    "Dsp.C11_diff_undoes_cum_sum",
    "Dsp.C11_cum_sum",
    "Dsp.C11_diff_with_start"
   ],
   "note": ""
  },
  {
   "property": "C12",
   "status": "proved",
   "theorems": [
    "Dsp.C12_chunks_tile",
    "Dsp.C12_source_target_agree"
   ],
   "note": ""
  },
  {
   "property": "C13",
   "status": "proved",
   "theorems": [
    "Dsp.C13_schedule_independent",
    "Dsp.C13_source_target"
   ],
   "note": ""
  },
  {
   "property": "C14",
   "status": "proved",
   "theorems": [
    "Dsp.C14_reduction_order_independent"
   ],
   "note": ""
  },
  {
   "property": "C15",
   "status": "proved",
   "theorems": [
    "Dsp.C15_thresholds_ordered",
    "Dsp.C15_worker_limit",
    "Dsp.C15_core_limit_positive",
    "Dsp.C15_zero_limit"
   ],
   "note": ""
  },
  {
   "property": "C16",
   "status": "partial",
   "theorems": [
    "Dsp.C16_symmetric_partial",
    "Dsp.C16_single_core_partial",
    "Dsp.C16_general_path",
    "Dsp.C16_one_point_violated",
    "Dsp.C16_empty_violated",
    "Dsp.C16_two_workers_violated",
    "Dsp.C16_four_workers_violated",
    "Dsp.C16_shipped_windows_symmetric",
    "Dsp.C16_exact",
    "Dsp.C16_iff"
   ],
   "note": "Holds if a single worker is used or the pairing of chunks fits; otherwise the multi-chunk pairing is wrong: C16_..._violated. C16_exact says for every number of points and workers which argument the window gets at each point, and C16_iff that the property holds for all symmetric windows if and only if there is one worker or the number of points is a multiple of twice the workers."
  },
  {
   "property": "C17",
   "status": "proved",
   "theorems": [
    "Dsp.C17_restores",
    "Dsp.C17_shipped_windows_nonzero"
   ],
   "note": ""
  },
  {
   "property": "C18",
   "status": "proved",
   "theorems": [
    "Dsp.C18_partition_tiles"
   ],
   "note": ""
  },
  {
   "property": "C19",
   "status": "partial",
   "theorems": [
    "Dsp.C19_registers_partial",
    "Dsp.C19_heap_data_partial",
    "Dsp.C19_unaligned_panics_violated",
    "Dsp.C19_avx512_panics_violated",
    "Dsp.C19_complex_cut_violated"
   ],
   "note": "The splitting panics or cuts complex points for some alignments: C19_..._violated."
  },
  {
   "property": "C20",
   "status": "proved",
   "theorems": [
    "Dsp.C20_real_vector",
    "Dsp.C20_complex_vector",
    "Dsp.C20_offset_scale",
    "Dsp.C20_complex_offset_scale",
    "Dsp.C20_elementwise",
    "Dsp.C20_complex_mul_div",
    "Dsp.C20_real",
    "Dsp.C20_complex",
    "Dsp.C20_binary_real",
    "Dsp.C20_binary_complex"
   ],
   "note": ""
  },
  {
   "property": "C21",
   "status": "proved",
   "theorems": [
    "Dsp.C21_sum",
    "Dsp.C21_sum_complex",
    "Dsp.C21_dot",
    "Dsp.C21_dot_complex",
    "Dsp.C21_dot_checks"
   ],
   "note": ""
  },
  {
   "property": "C22",
   "status": "proved",
   "theorems": [
    "Dsp.C22_operand_checks",
    "Dsp.C22_real",
    "Dsp.C22_complex"
   ],
   "note": ""
  },
  {
   "property": "C23",
   "status": "proved",
   "theorems": [
    "Dsp.C23_operand_checks",
    "Dsp.C23_real",
    "Dsp.C23_complex",
    "Dsp.C23_empty_operand_panics"
   ],
   "note": ""
  },
  {
   "property": "C24",
   "status": "proved",
   "theorems": [
    "Dsp.C24_real",
    "Dsp.C24_complex",
    "Dsp.C24_empty",
    "Dsp.C24_empty_complex"
   ],
   "note": ""
  },
  {
   "property": "C25",
   "status": "partial",
   "theorems": [
    "Dsp.C25_min_missed_violated",
    "Dsp.C25_merge_partial",
    "Dsp.C25_merge_min_exact",
    "Dsp.C25_merge_iff"
   ],
   "note": "Statistics::merge misses a new minimum if the same piece has a new maximum: C25_..._violated. C25_merge_min_exact says which elements are looked at for the minimum, C25_merge_iff is the exact condition under which the merged statistics describe the whole."
  },
  {
   "property": "C26",
   "status": "proved",
   "theorems": [
    "Dsp.C26_real",
    "Dsp.C26_complex",
    "Dsp.C26_bounds",
    "Dsp.C26_bounds_complex",
    "Dsp.C26_empty"
   ],
   "note": ""
  },
  {
   "property": "C27",
   "status": "partial",
   "theorems": [
    "Dsp.C27_map_aggregate_partial",
    "Dsp.C27_map_aggregate_complex_partial",
    "Dsp.C27_map_aggregate_number_space",
    "Dsp.C27_stale_cells_violated",
    "Dsp.C27_map_inplace_partial",
    "Dsp.C27_map_inplace_complex_partial",
    "Dsp.C27_map_inplace_violated",
    "Dsp.C27_map_aggregate_exact",
    "Dsp.C27_map_aggregate_complex_exact",
    "Dsp.C27_map_aggregate_iff",
    "Dsp.C27_map_inplace_odd",
    "Dsp.C27_pieces_in_order"
   ],
   "note": "map_inplace and map_aggregate use the whole storage: C27_stale_cells_violated; without unused storage the property is proved. C27_map_aggregate_exact, C27_map_aggregate_complex_exact say what is computed for every storage (or that it panics), C27_map_aggregate_iff that unused cells always matter."
  },
  {
   "property": "C28",
   "status": "proved",
   "theorems": [
    "Dsp.C28_statistics",
    "Dsp.C28_statistics_complex",
    "Dsp.C28_statistics_split",
    "Dsp.C28_statistics_split_complex",
    "Dsp.C28_kahan_is_sum",
    "Dsp.C28_sum_prec",
    "Dsp.C28_sum_prec_complex",
    "Dsp.C28_sum_prec_f32",
    "Dsp.C28_dot_prec"
   ],
   "note": ""
  },
  {
   "property": "C29",
   "status": "proved",
   "theorems": [
    "Dsp.C29_to_complex",
    "Dsp.C29_round_trip",
    "Dsp.C29_to_complex_b"
   ],
   "note": ""
  },
  {
   "property": "C30",
   "status": "partial",
   "theorems": [
    "Dsp.C30_in_place",
    "Dsp.C30_buffered",
    "Dsp.C30_destination_partial",
    "Dsp.C30_destination_violated",
    "Dsp.C30_magnitude_b_partial",
    "Dsp.C30_magnitude_squared_b_partial",
    "Dsp.C30_avx_f64_violated",
    "Dsp.C30_get_magnitude_partial",
    "Dsp.C30_get_magnitude_storage_violated"
   ],
   "note": "get_magnitude, get_phase ... use the whole storage of the source: C30_get_magnitude_storage_violated."
  },
  {
   "property": "C31",
   "status": "partial",
   "theorems": [
    "Dsp.C31_conj_partial",
    "Dsp.C31_conj_involution_partial",
    "Dsp.C31_exponential_partial",
    "Dsp.C31_exponential_documented_partial",
    "Dsp.C31_offset_violated",
    "Dsp.C31_exponential_iff"
   ],
   "note": "multiply_complex_exponential scales b with the sampling distance as well: C31_..._violated; conj proved in full. C31_exponential_iff is the exact condition."
  },
  {
   "property": "C32",
   "status": "partial",
   "theorems": [
    "Dsp.C32_complex_to_real",
    "Dsp.C32_getters",
    "Dsp.C32_getters_pair",
    "Dsp.C32_real_to_complex",
    "Dsp.C32_complex_ops",
    "Dsp.C32_setter_violated",
    "Dsp.C32_transforms",
    "Dsp.C32_symmetric_transforms",
    "Dsp.C32_mirror_violated",
    "Dsp.C32_window_violated"
   ],
   "note": "Some operations do not check number space or domain or continue after the check: C32_..._violated."
  },
  {
   "property": "C33",
   "status": "partial",
   "theorems": [
    "Dsp.C33_restores_partial",
    "Dsp.C33_increasing_partial",
    "Dsp.C33_constant_violated",
    "Dsp.C33_wrap",
    "Dsp.C33_wrap_remainder",
    "Dsp.C33_unwrap",
    "Dsp.C33_unwrap_steps",
    "Dsp.C33_restores_iff"
   ],
   "note": "unwrap is wrong if a step is zero after a wrap or leads back: C33_..._violated. What wrap and unwrap compute is proved for all sequences, divisors and schedules (C33_wrap, C33_unwrap), as well as that unwrap only adds multiples of the divisor and never leaves a step above it (C33_unwrap_steps). C33_restores_iff is the exact condition on the steps of a sequence under which unwrap after wrap restores it."
  },
  {
   "property": "C34",
   "status": "proved",
   "theorems": [
    "Dsp.C34_plain_fft",
    "Dsp.C34_plain_ifft",
    "Dsp.C34_plain_round_trip",
    "Dsp.C34_fft",
    "Dsp.C34_ifft",
    "Dsp.C34_round_trip",
    "Dsp.C34_windowed_fft",
    "Dsp.C34_windowed_round_trip"
   ],
   "note": ""
  },
  {
   "property": "C35",
   "status": "partial",
   "theorems": [
    "Dsp.C35_plain_ifft_violated",
    "Dsp.C35_fft_partial",
    "Dsp.C35_plain_ifft_partial"
   ],
   "note": "plain_ifft and plain_sifft report the frequency domain for run-time typed vectors: C35_..._violated."
  },
  {
   "property": "C36",
   "status": "proved",
   "theorems": [
    "Dsp.C36_mirror",
    "Dsp.C36_restores",
    "Dsp.C36_conj_symmetric"
   ],
   "note": ""
  },
  {
   "property": "C37",
   "status": "partial",
   "theorems": [
    "Dsp.C37_frequency_exact",
    "Dsp.C37_frequency_iff",
    "Dsp.C37_overlap_discard_partial",
    "Dsp.C37_overlap_discard_gap",
    "Dsp.C37_convolve_scalar",
    "Dsp.C37_convolve_signal_partial",
    "Dsp.C37_convolve_signal_errors",
    "Dsp.C37_convolve_signal_violated"
   ],
   "note": "The scalar and SIMD paths compute the circular convolution; the overlap-discard path for long signals leaves unconvolved input: C37_convolve_signal_violated. C37_frequency_exact describes the result of that path for all lengths (convolution outside of a gap, input or transform left-overs within), C37_frequency_iff is the exact condition on the lengths under which the path is right."
  },
  {
   "property": "C38",
   "status": "proved",
   "theorems": [
    "Dsp.C38_convolve_simd"
   ],
   "note": ""
  },
  {
   "property": "C39",
   "status": "proved",
   "theorems": [
    "Dsp.C39_wrapping",
    "Dsp.C39_reverse_wrapping",
    "Dsp.C39_cyclic_exists",
    "Dsp.C39_empty"
   ],
   "note": ""
  },
  {
   "property": "C40",
   "status": "proved",
   "theorems": [
    "Dsp.C40_next_power_of_two",
    "Dsp.C40_least",
    "Dsp.C40_zero"
   ],
   "note": ""
  },
  {
   "property": "C41",
   "status": "proved",
   "theorems": [
    "Dsp.C41_decimatei",
    "Dsp.C41_factor_zero_panics"
   ],
   "note": ""
  },
  {
   "property": "C42",
   "status": "proved",
   "theorems": [
    "Dsp.C42_interpolate_lin",
    "Dsp.C42_integer_factor",
    "Dsp.C42_delay_panics",
    "Dsp.C42_complex_invalid"
   ],
   "note": ""
  },
  {
   "property": "C43",
   "status": "partial",
   "theorems": [
    "Dsp.C43_fixed_buffer_violated",
    "Dsp.C43_buffers_transparent_partial"
   ],
   "note": "C43_buffers_transparent_partial proves the property for all modelled operations in the environments of Spec/Safe.lean. Fixed length buffers truncate; zero_pad_b Center shows the stale contents of the buffer: C43_..._violated. Everywhere else the results are independent of the buffer."
  },
  {
   "property": "C44",
   "status": "partial",
   "theorems": [
    "Dsp.C44_history_partial",
    "Dsp.C44_history_total",
    "Dsp.C44_constructors",
    "Dsp.C44_fixed_of_size",
    "Dsp.C44_from_iter",
    "Dsp.C44_try_resize_violated"
   ],
   "note": "try_resize reports success without growing, from_iter never becomes dynamic: C44_..._violated."
  },
  {
   "property": "C45",
   "status": "partial",
   "theorems": [
    "Dsp.C45_real_lanes",
    "Dsp.C45_complex_points",
    "Dsp.C45_complex_pairs",
    "Dsp.C45_norms_partial",
    "Dsp.C45_avx_f64_norm_violated",
    "Dsp.C45_avx_f64_norm_wrong_violated",
    "Dsp.C45_sums"
   ],
   "note": "AVX f64x4 half stores exchange lanes: C45_..._violated."
  },
  {
   "property": "C46",
   "status": "proved",
   "theorems": [
    "Dsp.C46_get_mag_phase",
    "Dsp.C46_set_get"
   ],
   "note": ""
  },
  {
   "property": "C47",
   "status": "proved",
   "theorems": [
    "Dsp.C47_math_ops",
    "Dsp.C47_root",
    "Dsp.C47_sqrt_square_abs",
    "Dsp.C47_sqrt_square_complex"
   ],
   "note": ""
  },
  {
   "property": "C48",
   "status": "partial",
   "theorems": [
    "Dsp.C48_round_trip_violated",
    "Dsp.C48_hertz_violated"
   ],
   "note": "delta after fft is points * delta and never converted back: C48_..._violated."
  },
  {
   "property": "C49",
   "status": "partial",
   "theorems": [
    "Dsp.C49_sfft_static_partial",
    "Dsp.C49_generic_violated",
    "Dsp.C49_plain_sifft_static_partial",
    "Dsp.C49_round_trip_partial",
    "Dsp.C49_sifft_generic_violated",
    "Dsp.C49_sifft_violated",
    "Dsp.C49_windowed_sfft_violated",
    "Dsp.C49_windowed_sifft_violated"
   ],
   "note": "static real sfft interleaves twice, sifft rotates the half spectrum before mirroring, generic unmirror mixes points and numbers, windowed_sfft takes the window of twice as many points: C49_..._violated."
  },
  {
   "property": "C50",
   "status": "proved",
   "theorems": [
    "Dsp.C50_interpolate_hermite_delay",
    "Dsp.C50_interpolate_hermite",
    "Dsp.C50_short_panics",
    "Dsp.C50_delay_panics",
    "Dsp.C50_fraction_panics",
    "Dsp.C50_complex_invalid"
   ],
   "note": ""
  },
  {
   "property": "C51",
   "status": "partial",
   "theorems": [
    "Dsp.C51_empty_chunks_violated",
    "Dsp.C51_empty_reduction_violated",
    "Dsp.C51_to_complex_b_empty_violated",
    "Dsp.C51_diff_empty_violated",
    "Dsp.C51_ifft_one_point_violated",
    "Dsp.C51_fft_empty_violated",
    "Dsp.C51_mirror_empty_violated",
    "Dsp.C51_zero_interleave_b_empty_violated",
    "Dsp.C51_no_panic_partial",
    "Dsp.C51_ifft_shift_one_point_violated",
    "Dsp.C51_dot_product_shorter_violated",
    "Dsp.C42_delay_panics",
    "Dsp.C50_delay_panics",
    "Dsp.C50_short_panics",
    "Dsp.C50_fraction_panics",
    "Dsp.C23_empty_operand_panics",
    "Dsp.C41_factor_zero_panics",
    "Dsp.C54_one_point_violated",
    "Dsp.C55_complex_response_violated",
    "Dsp.C56_one_point_violated",
    "Dsp.C57_empty_violated",
    "Dsp.C59_short_violated"
   ],
   "note": "Each theorem is a proved panic of the code on a well-formed input; C51_no_panic_partial proves that no operation of a history panics in the environments of Spec/Safe.lean."
  },
  {
   "property": "C52",
   "status": "partial",
   "theorems": [
    "Dsp.C52_diff_violated",
    "Dsp.C52_mul_violated",
    "Dsp.C52_zero_interleave_violated",
    "Dsp.C52_unused_storage_partial",
    "Dsp.C52_sum_violated",
    "Dsp.C27_stale_cells_violated",
    "Dsp.C30_get_magnitude_storage_violated",
    "Dsp.C10_split_violated",
    "Dsp.C10_merge_violated"
   ],
   "note": "Each _violated theorem is a proved influence of unused storage; C52_unused_storage_partial proves that there is none in histories of operations in the environments of Spec/Safe.lean."
  },
  {
   "property": "C53",
   "status": "proved",
   "theorems": [
    "Dsp.C53_step",
    "Dsp.C53_history",
    "Dsp.C53_history_terminates",
    "Dsp.C53_environment"
   ],
   "note": "A refinement theorem: the abstract meaning of the calls is Spec/Signal.lean, the accepted environments Spec/Safe.lean. sfft, plain_sfft, plain_sifft are not part (C49)."
  },
  {
   "property": "C54",
   "status": "partial",
   "theorems": [
    "Dsp.C54_prepare_argument",
    "Dsp.C54_prepare_argument_padded",
    "Dsp.C54_correlate",
    "Dsp.C54_cross_correlation",
    "Dsp.C54_unpadded_violated",
    "Dsp.C54_one_point_violated",
    "Dsp.C54_rejects"
   ],
   "note": "Signals of at least two points: prepare_argument_padded panics for one point or none (C54_one_point_violated); an argument which is not longer than the signal, thus prepare_argument of a signal of the same length, is always rejected (C54_unpadded_violated)."
  },
  {
   "property": "C55",
   "status": "partial",
   "theorems": [
    "Dsp.C55_convolve_real_partial",
    "Dsp.C55_convolve_complex_simd",
    "Dsp.C55_convolve_complex_partial",
    "Dsp.C55_complex_response_partial",
    "Dsp.C55_complex_response_violated",
    "Dsp.C55_rejects",
    "Dsp.C55_unit_impulse",
    "Dsp.C55_real_vector_violated",
    "Dsp.C55_ratio_violated"
   ],
   "note": "For complex signals with ratio 1, and for all signals for which the special implementation is not selected. The special implementation evaluates the function in the distance 1/ratio (C55_ratio_violated), delays real signals (C55_real_vector_violated) and panics for complex functions (C55_complex_response_violated). Blocks which leave a gap in the overlap-discard implementation: see C37."
  },
  {
   "property": "C56",
   "status": "partial",
   "theorems": [
    "Dsp.C56_real_response_partial",
    "Dsp.C56_complex_response_partial",
    "Dsp.C56_many_points_partial",
    "Dsp.C56_single_core_partial",
    "Dsp.C56_rejects",
    "Dsp.C56_few_points_violated",
    "Dsp.C56_one_point_violated",
    "Dsp.C56_exact",
    "Dsp.C56_exact_complex",
    "Dsp.C56_iff"
   ],
   "note": "Complete for responses which are not declared symmetric; for symmetric ones if the points are cut into twice as many chunks as there are workers, which holds for one worker and for more than (2 workers - 1)^2 points (C56_many_points_partial). With fewer points chunks stay without a partner and are not multiplied: C56_few_points_violated. C56_exact and C56_exact_complex describe the result for every number of points and workers (which points are multiplied and which are left), C56_iff is the exact condition under which the property holds: (2k-1)*ceil(n/2k) < n."
  },
  {
   "property": "C57",
   "status": "partial",
   "theorems": [
    "Dsp.C57_interpft",
    "Dsp.C57_spectrum",
    "Dsp.C57_same_points",
    "Dsp.C57_keeps_points",
    "Dsp.C57_round_trip",
    "Dsp.C57_whole_delay_partial",
    "Dsp.C57_rejects",
    "Dsp.C57_delay_odd_violated",
    "Dsp.C57_response_odd_violated",
    "Dsp.C57_response_even_violated",
    "Dsp.C57_real_round_trip_violated",
    "Dsp.C57_empty_violated",
    "Dsp.C57_interpolate_partial",
    "Dsp.C57_exact",
    "Dsp.C57_delay_iff",
    "Dsp.C57_response_iff"
   ],
   "note": "interpft is complete (C57_interpft, C57_spectrum, C57_same_points, C57_keeps_points, C57_round_trip). interpolate with a delay which is not a whole number of sampling distances needs an even number of points (C57_delay_odd_violated); a symmetric response needs an even N (C57_response_odd_violated), others an odd N (C57_response_even_violated). More points and back does not restore real vectors (C57_real_round_trip_violated); empty real vectors panic (C57_empty_violated). C57_exact says what interpolate computes for every delay and response; C57_delay_iff and C57_response_iff are the exact conditions under which this is right for all signals."
  },
  {
   "property": "C58",
   "status": "partial",
   "theorems": [
    "Dsp.C58_response_odd_violated",
    "Dsp.C58_exact",
    "Dsp.C58_iff",
    "Dsp.C58_interpolatei_partial",
    "Dsp.C58_unchanged",
    "Dsp.C58_keeps_points_partial",
    "Dsp.C58_decimatei_restores_partial"
   ],
   "note": "A symmetric response needs an even number of points in the result, others an odd number: C58_response_odd_violated. The rest holds in full; the sampling distance is not updated by the code (part of the theorems). C58_exact says what interpolatei computes for every response, C58_iff is the exact condition on the response."
  },
  {
   "property": "C59",
   "status": "partial",
   "theorems": [
    "Dsp.C59_scalar",
    "Dsp.C59_interpolatef_partial",
    "Dsp.C59_support",
    "Dsp.C59_nodes",
    "Dsp.C59_whole_factor_partial",
    "Dsp.C59_same_result_partial",
    "Dsp.C59_keeps_points_partial",
    "Dsp.C59_short_violated",
    "Dsp.C59_delay_violated",
    "Dsp.C59_odd_points_violated",
    "Dsp.C59_asymmetric_violated"
   ],
   "note": "Complete for even functions where registers are not used (every factor and delay), and for whole factors without delay if the data fits to the registers. With registers the middle of the signal is computed with the mirrored function: a delay moves it into the other direction (C59_delay_violated); signals with too few points panic (C59_short_violated); without registers functions which are not even are mirrored (C59_asymmetric_violated); a real result with an odd number of points gets one more (C59_odd_points_violated). Not covered: factors which are not whole but closer than 1e-6 to a whole number, empty signals."
  },
  {
   "property": "C60",
   "status": "partial",
   "theorems": [
    "Dsp.C60_step",
    "Dsp.C60_terminates",
    "Dsp.C60_history",
    "Dsp.C60_diff_with_start_violated",
    "Dsp.C60_cum_sum_violated"
   ],
   "note": "Complete for all methods without a result except diff_with_start and cum_sum, which call diff (C60_diff_with_start_violated, C60_cum_sum_violated). Methods of the matrix whose vector counterparts are not in the refinement C53 (wrap, unwrap, windowed transforms, correlation, convolution with functions, interpolation) are the subject of C77."
  },
  {
   "property": "C61",
   "status": "partial",
   "theorems": [
    "Dsp.C61_resize",
    "Dsp.C61_resize_error",
    "Dsp.C61_binary",
    "Dsp.C61_binary_error",
    "Dsp.C61_binary_smaller",
    "Dsp.C61_binary_vector",
    "Dsp.C61_fewer_rows_violated",
    "Dsp.C61_to_complex",
    "Dsp.C61_to_complex_error",
    "Dsp.C61_error_order_violated",
    "Dsp.C61_to_complex_error_order_violated",
    "Dsp.C61_setters",
    "Dsp.C61_sfft_partial"
   ],
   "note": "An operand matrix with less rows is not rejected and reports success (C61_fewer_rows_violated); if several rows fail with different errors the types of matrices report different ones (C61_error_order_violated, C61_to_complex_error_order_violated). sfft for real rows of the static type with odd length (C61_sfft_partial, see C49)."
  },
  {
   "property": "C62",
   "status": "partial",
   "theorems": [
    "Dsp.C62_sums",
    "Dsp.C62_sums_array",
    "Dsp.C62_sums_array_violated",
    "Dsp.C62_dot",
    "Dsp.C62_dot_vector",
    "Dsp.C62_dot_error",
    "Dsp.C62_statistics",
    "Dsp.C62_statistics_split",
    "Dsp.C62_map_aggregate_partial",
    "Dsp.C62_map_aggregate_error",
    "Dsp.C62_get_real_imag_partial",
    "Dsp.C62_getters_violated",
    "Dsp.C62_get_magnitude_squared_violated",
    "Dsp.C62_get_pair"
   ],
   "note": "get_magnitude, get_magnitude_squared and get_phase give the imaginary part (C62_getters_violated, C62_get_magnitude_squared_violated); sum and sum_sq as arrays of 3 or 4 entries exist for matrices with 2 rows only and panic (C62_sums_array_violated). get_real, get_imag: complete but for the storage conditions of C30 (C62_get_real_imag_partial)."
  },
  {
   "property": "C63",
   "status": "partial",
   "theorems": [
    "Dsp.C63_create",
    "Dsp.C63_round_trip",
    "Dsp.C63_set_delta",
    "Dsp.C63_agree_step",
    "Dsp.C63_meta",
    "Dsp.C63_history",
    "Dsp.C63_row_len_violated",
    "Dsp.C63_no_rows_violated"
   ],
   "note": "Complete if the rows agree in length, number space, domain and sampling distance when the matrix is made; this is not checked (C63_row_len_violated). get_meta_data panics on a matrix without rows (C63_no_rows_violated)."
  },
  {
   "property": "C64",
   "status": "partial",
   "theorems": [
    "Dsp.C64_convolve_partial",
    "Dsp.C64_errors",
    "Dsp.C64_missing_responses_violated",
    "Dsp.C64_complex_violated",
    "Dsp.C64_long_response_violated",
    "Dsp.C64_many_rows_violated",
    "Dsp.C64_domain_violated"
   ],
   "note": "Complete for matrices with at most 64 rows and one list of responses per row, where the responses are not longer than the rows (real) or as long as the rows (complex). Violated otherwise: shorter complex responses give a wrong result (C64_complex_violated), more than 64 rows panic (C64_many_rows_violated), rows without responses get what is left in the buffer (C64_missing_responses_violated), longer responses and frequency domain are not rejected (C64_long_response_violated, C64_domain_violated)."
  },
  {
   "property": "C65",
   "status": "partial",
   "theorems": [
    "Dsp.C65_from_raw_parts",
    "Dsp.C65_table",
    "Dsp.C65_at_points",
    "Dsp.C65_between",
    "Dsp.C65_beyond",
    "Dsp.C65_edge",
    "Dsp.C65_before",
    "Dsp.C65_range_violated",
    "Dsp.C65_symmetry_violated",
    "Dsp.C65_symmetric_partial",
    "Dsp.C65_total",
    "Dsp.C65_accuracy"
   ],
   "note": "Over an ordered field with floor (exact arithmetic). Complete for arguments from the first value on. Before the first value the table gives its first value for ever instead of zero (C65_before, C65_range_violated), so a table of a symmetric function is symmetric only within its range (C65_symmetric_partial, C65_symmetry_violated)."
  },
  {
   "property": "C66",
   "status": "partial",
   "theorems": [
    "Dsp.C66_to_complex",
    "Dsp.C66_to_real",
    "Dsp.C66_to_complex_to_real",
    "Dsp.C66_same_function",
    "Dsp.C66_empty_violated",
    "Dsp.C66_fft",
    "Dsp.C66_scratch_violated",
    "Dsp.C66_ifft",
    "Dsp.C66_round_trip_partial",
    "Dsp.C66_delta_violated",
    "Dsp.C66_magnitudes",
    "Dsp.C66_spectrum_partial",
    "Dsp.C66_magnitude_spectrum",
    "Dsp.C66_phase_violated"
   ],
   "note": "to_complex, to_real and the magnitude spectra are complete for non-empty tables (an empty real table panics, C66_empty_violated). The transforms are right up to a phase factor (C66_spectrum_partial, C66_phase_violated); the round trip restores the values and symmetry (C66_round_trip_partial) but multiplies delta by n^2 (C66_delta_violated); FFT back ends which need more scratch memory than n panic (C66_scratch_violated); tables of one value are excluded for ifft (C51)."
  },
  {
   "property": "C67",
   "status": "proved",
   "theorems": [
    "Dsp.C67_sinc",
    "Dsp.C67_sinc_pulse",
    "Dsp.C67_rolloff_zero",
    "Dsp.C67_rc_closed",
    "Dsp.C67_rc_pulse",
    "Dsp.C67_sinc_band",
    "Dsp.C67_rc_band",
    "Dsp.C67_nyquist",
    "Dsp.C67_sinc_pair",
    "Dsp.C67_rc_pair"
   ],
   "note": "Over the real numbers with the real pi, sin, cos; floating point rounding is not modelled."
  },
  {
   "property": "C68",
   "status": "partial",
   "theorems": [
    "Dsp.C68_vectors",
    "Dsp.C68_scalars",
    "Dsp.C68_statistics",
    "Dsp.C68_values",
    "Dsp.C68_unambiguous",
    "Dsp.C68_distinct",
    "Dsp.C68_undocumented_violated",
    "Dsp.C68_getters_violated",
    "Dsp.C68_split_into_violated"
   ],
   "note": "For every library behind the facade. The errors InputMustHaveAnEvenLength and TypeCanNotResize are reported with undocumented codes (C68_undocumented_violated); the functions which write to other vectors report 9 (VectorMustHaveAnOddLength) on success (C68_getters_violated, C68_split_into_violated)."
  },
  {
   "property": "C69",
   "status": "partial",
   "theorems": [
    "Dsp.C69_names",
    "Dsp.C69_args",
    "Dsp.C69_vectors",
    "Dsp.C69_targets",
    "Dsp.C69_other_codes",
    "Dsp.C69_atan_violated",
    "Dsp.C69_negative_factor_violated",
    "Dsp.C69_link_violated",
    "Dsp.C69_divide"
   ],
   "note": "All exported functions which give back a vector. atan calls tan (C69_atan_violated), negative factors become huge (C69_negative_factor_violated), fft_shift and ifft_shift can not be linked (C69_link_violated)."
  },
  {
   "property": "C70",
   "status": "proved",
   "theorems": [
    "Dsp.C70_step",
    "Dsp.C70_programs",
    "Dsp.C70_no_leak",
    "Dsp.C70_taken",
    "Dsp.C70_readers",
    "Dsp.C70_overwrite",
    "Dsp.C70_clone_violated",
    "Dsp.C70_getters_violated",
    "Dsp.C70_sub_violated",
    "Dsp.C70_self_operand",
    "Dsp.C70_written",
    "Dsp.C70_distinct",
    "Dsp.C70_targets"
   ],
   "note": "For every library, every sound allocator and every C program which obeys the signatures. Where the signatures differ from what a C programmer expects: clone and the get_ functions destroy their source (C70_clone_violated, C70_getters_violated), sub wants the address of a handle (C70_sub_violated), a vector can not be combined with itself (C70_self_operand). Panics across the C boundary (undefined behaviour in old Rust versions) end the program in the model."
  },
  {
   "property": "C71",
   "status": "partial",
   "theorems": [
    "Dsp.C71_new",
    "Dsp.C71_new_odd",
    "Dsp.C71_new_settings",
    "Dsp.C71_get",
    "Dsp.C71_out_of_range",
    "Dsp.C71_set",
    "Dsp.C71_queries",
    "Dsp.C71_data",
    "Dsp.C71_overwrite",
    "Dsp.C71_overwrite_violated",
    "Dsp.C71_set_len",
    "Dsp.C71_clone"
   ],
   "note": "overwrite_data rejects an array which is exactly as long as the vector (C71_overwrite_violated). A complex vector with an odd length is created empty (C71_new_odd); set_len to an odd length is ignored for a complex vector (C71_set_len)."
  },
  {
   "property": "C72",
   "status": "proved",
   "theorems": [
    "Dsp.C72_step",
    "Dsp.C72_program",
    "Dsp.C72_environment"
   ],
   "note": "The meaning of the statements is Spec/Program.lean, the accepted environments Spec/ProgramSafe.lean (the hypotheses of the theorems about the single functions). Built on C53 and the single-function theorems. sfft, plain_sfft, plain_sifft are not statements (C49)."
  },
  {
   "property": "C73",
   "status": "proved",
   "theorems": [
    "Dsp.C73_additions",
    "Dsp.C73_additions_f32",
    "Dsp.C73_additions_dot",
    "Dsp.C73_rounding",
    "Dsp.C73_sum_error",
    "Dsp.C73_kahan",
    "Dsp.C73_sum_prec_error",
    "Dsp.C73_sum_sq_error",
    "Dsp.C73_dot_error",
    "Dsp.C73_dot_prec_error",
    "Dsp.C73_sum_sq_prec_error",
    "Dsp.C73_f32_error",
    "Dsp.C73_additions_complex",
    "Dsp.C73_additions_dot_complex",
    "Dsp.C73_sum_complex_error",
    "Dsp.C73_dot_complex_error",
    "Dsp.C73_dot_prec_complex_error",
    "Dsp.C73_sum_prec_complex_error"
   ],
   "note": "The standard model of floating point arithmetic is Spec/Rounding.lean (a rounding with relative error u; an instance with p+1 binary digits is given); C73_additions* are free of laws for the arithmetic (complex products: commutativity). Alignments as in C19, storages of complex vectors as in C52, equal lengths as in C51."
  },
  {
   "property": "C74",
   "status": "partial",
   "theorems": [
    "Dsp.C74_real",
    "Dsp.C74_real_same",
    "Dsp.C74_complex",
    "Dsp.C74_complex_same",
    "Dsp.C74_offset_scale_complex",
    "Dsp.C74_settings",
    "Dsp.C74_statistics",
    "Dsp.C74_abs",
    "Dsp.C74_abs_violated",
    "Dsp.C74_magnitude_violated",
    "Dsp.C74_sum_violated"
   ],
   "note": "Proved for the elementary operations, offset and scale, and the independence of sums, dot products and statistics of settings and order; sqrt, square and the functions are C47_sqrt_square_abs, C47_sqrt_square_complex, C47_math_ops (no laws used), real offset and scale C20_offset_scale. False for abs and magnitude, which calculate differently in registers (C74_abs says exactly where; C74_abs_violated, C74_magnitude_violated), and for sums on different machines or addresses (C74_sum_violated). Alignments as in C19."
  },
  {
   "property": "C75",
   "status": "partial",
   "theorems": [
    "Dsp.C75_read",
    "Dsp.C75_bounds",
    "Dsp.C75_write",
    "Dsp.C75_write_one",
    "Dsp.C75_complex",
    "Dsp.C75_complex_write",
    "Dsp.C75_not_complex_violated"
   ],
   "note": "datac of a generic vector which holds real numbers is not empty (C75_not_complex_violated). Otherwise proved; a caller of a mut method is any function on lists which keeps the length."
  },
  {
   "property": "C76",
   "status": "proved",
   "theorems": [
    "Dsp.C76_one_core",
    "Dsp.C76_element_wise",
    "Dsp.C76_source_target",
    "Dsp.C76_reduction"
   ],
   "note": "Reductions: over commutative monoids (see C74 for rounded sums, which are only independent of settings because they use one worker). Element-wise: non-empty data, see C51_empty_chunks_violated."
  },
  {
   "property": "C77",
   "status": "partial",
   "theorems": [
    "Dsp.C77_unary",
    "Dsp.C77_unary_terminates",
    "Dsp.C77_binary",
    "Dsp.C77_binary_terminates",
    "Dsp.C77_binary_vector",
    "Dsp.C77_binary_vector_terminates",
    "Dsp.C77_asymmetric",
    "Dsp.C77_plain_sifft_partial",
    "Dsp.C77_windowed_sfft_violated",
    "Dsp.C77_sifft_violated"
   ],
   "note": "Per row the conditions are those of C72 (UnOp.Safe, BinOp.Safe: what the vector theorems need); within them proved in full, including the handed-over buffer, errors and termination. The missing part are the symmetric transforms: plain_sifft for the static types; windowed_sfft, sifft and windowed_sifft inherit the defects of the vectors (C77_windowed_sfft_violated, C77_sifft_violated)."
  },
  {
   "property": "C78",
   "status": "partial",
   "theorems": [
    "Dsp.C78_limits",
    "Dsp.C78_codes",
    "Dsp.C78_pays",
    "Dsp.C78_uses_threads",
    "Dsp.C78_never_pays_violated"
   ],
   "note": "The last sentence is false: the sign of the crossing is dropped, so threads are also used where they are slower for every size (C78_never_pays_violated). Clock and regression are parameters; numbers are exact; the overflow of 2 * crossing (crossings beyond 2^63) is not modelled. For operations of large complexity the threshold is the rounded crossing: at most the time for half an element is lost."
  },
  {
   "property": "C79",
   "status": "partial",
   "theorems": [
    "Dsp.C79_sin",
    "Dsp.C79_cos",
    "Dsp.C79_exp",
    "Dsp.C79_ln_absolute",
    "Dsp.C79_ln_partial",
    "Dsp.C79_ln_input",
    "Dsp.C79_ln_invalid",
    "Dsp.C79_ln_violated",
    "Dsp.C79_vector_partial",
    "Dsp.C79_complex",
    "Dsp.C79_powf_negative_violated",
    "Dsp.C79_powf_violated"
   ],
   "note": "Exact arithmetic: the rounding of the register arithmetic is not modelled, the constants and the bit operations are. The claim for ln is false between 1.95 and 2 (C79_ln_violated: sqrthf is sqrt(2) instead of sqrt(1/2)); it is proved elsewhere above 1 except between 1.9 and 1.95. powf_approx is false for negative and some positive small numbers (C79_powf_negative_violated, C79_powf_violated). sin, cos: arguments up to 1E8; exp: up to 87, wider than documented. C79_vector_partial holds for the arguments of ApproxOp.Covers (Spec/Approximations.lean)."
  },
  {
   "property": "C80",
   "status": "partial",
   "theorems": [
    "Dsp.C80_getf",
    "Dsp.C80_get_real",
    "Dsp.C80_get_slice_partial",
    "Dsp.C80_get_slice_violated",
    "Dsp.C80_get_vec_partial",
    "Dsp.C80_get_vec_violated",
    "Dsp.C80_into_real",
    "Dsp.C80_into_complex_zeros",
    "Dsp.C80_into_complex_partial",
    "Dsp.C80_into_violated",
    "Dsp.C80_memory",
    "Dsp.C80_memory_taken",
    "Dsp.C80_get_round_trip",
    "Dsp.C80_memory_violated",
    "Dsp.C80_clone_from"
   ],
   "note": "getf, get of real vectors and into of real vectors are complete. For complex vectors into() appends a zero for every unused pair of the capacity (C80_into_complex_zeros says exactly what it gives, C80_into_violated); get and into panic for a Vec without capacity (C80_get_vec_violated), get for slices with an odd number of elements (C80_get_slice_violated); a Vec with an odd capacity releases less memory than was requested (C80_memory, C80_memory_violated)."
  },
  {
   "property": "C81",
   "status": "partial",
   "theorems": [
    "Dsp.C81_call",
    "Dsp.C81_step",
    "Dsp.C81_program",
    "Dsp.C81_environment",
    "Dsp.C81_no_leak",
    "Dsp.C81_ifft_violated",
    "Dsp.C81_responses",
    "Dsp.C81_windows",
    "Dsp.C81_foreign"
   ],
   "note": "C81_program composes C70 (memory), C68 (codes) and C72 (programs) for whole C programs. Violated by the inverse transforms: every vector of the facade is generic and stays in frequency domain (C81_ifft_violated), so ifft and plain_ifft of vectors in frequency domain are excluded. The functions which write to other vectors report the code 9 (C68_getters_violated), the specification says so. map_aggregate and map_inplace take functions of the C program, statistics return tables; statistics of parts which are empty are excluded (C26). Not described: the approximated functions (C79), the symmetric transforms (C49), get_allocated_len; programs which call them are excluded by SafeProgram."
  },
  {
   "property": "C82",
   "status": "partial",
   "theorems": [
    "Dsp.C82_complex_rms",
    "Dsp.C82_complex_prec_errors",
    "Dsp.C82_complex_prec_rms",
    "Dsp.C82_extremes",
    "Dsp.C82_extremes_complex",
    "Dsp.C82_columns",
    "Dsp.C82_columns_complex",
    "Dsp.C82_f32",
    "Dsp.C82_f32_complex",
    "Dsp.C82_errors",
    "Dsp.C82_prec_errors",
    "Dsp.C82_complex_errors",
    "Dsp.C82_split_prec_violated"
   ],
   "note": "Violated by statistics_split_prec of f64 vectors: all columns share one compensation, so the digits lost in one column are added to another (C82_split_prec_violated: a column of zeros with the sum 1/2, for every precision). Everything else is proved: the extremes, the columns of statistics_split, the f32 versions, the error bounds. For complex vectors: the sums, averages and rms of both statistics (C82_complex_rms, C82_complex_prec_rms bound the error of the square of the rms: a square root of a complex number is not continuous). Overflow, underflow and NaN are not modelled."
  },
  {
   "property": "C83",
   "status": "proved",
   "theorems": [
    "Dsp.C83_plain_fft",
    "Dsp.C83_fft",
    "Dsp.C83_ifft",
    "Dsp.C83_round_trip",
    "Dsp.C83_injective",
    "Dsp.C83_linear",
    "Dsp.C83_scale",
    "Dsp.C83_scale_complex",
    "Dsp.C83_conj_odd",
    "Dsp.C83_real_odd",
    "Dsp.C83_real_symmetric",
    "Dsp.C83_zero_frequency",
    "Dsp.C83_sum_of_spectrum",
    "Dsp.C83_parseval",
    "Dsp.C83_convolution",
    "Dsp.C83_modulation",
    "Dsp.C83_convolution_spectrum",
    "Dsp.C83_interleave",
    "Dsp.C83_zero_pad",
    "Dsp.C83_decimate",
    "Dsp.C83_swap_halves"
   ],
   "note": "Over the real numbers, for programs in environments which accept their statements (Machine.SafeAll, C72); ifft only for vectors of static type with other than one point (C35, C51)."
  },
  {
   "property": "C84",
   "status": "proved",
   "theorems": [
    "Dsp.C84_complex_error",
    "Dsp.C84_near_agree",
    "Dsp.C84_scalar_error",
    "Dsp.C84_simd_error",
    "Dsp.C84_convolve_error",
    "Dsp.C84_agree",
    "Dsp.C84_pairs"
   ],
   "note": "Standard model of floating point arithmetic (Spec/Rounding.lean, no overflow or underflow). The implementation in frequency domain (C84_complex_error): the accuracy e of the FFT library is a parameter, lengths without a gap (NoGap, C37), u <= 1/1000 and the transform length (a power of two) is a number of the floating point type."
  },
  {
   "property": "C85",
   "status": "partial",
   "theorems": [
    "Dsp.C85_convolve_real_partial",
    "Dsp.C85_convolve_complex_partial",
    "Dsp.C85_end_violated",
    "Dsp.C85_convolve_fallback",
    "Dsp.C85_same_as_cpu",
    "Dsp.C85_complex64_odd_violated",
    "Dsp.C85_complex32_violated",
    "Dsp.C85_fft_len",
    "Dsp.C85_convolve_complex32_exact"
   ],
   "note": "The code violates the property: the last numbers of the vector are never computed (C85_end_violated), complex f32 has a sign error in the kernel (C85_complex32_violated; what it computes instead: C85_convolve_complex32_exact), complex f64 is wrong for responses with an odd number of points (C85_complex64_odd_violated). Proved: all other numbers of real vectors and of complex f64 vectors with even responses. Responses with more than 2^24 numbers (conv_size as f32 loses precision) are not covered. The kernel source is assumed to be compiled; OpenCL devices and clFFT are not modelled, the overlap-discard convolution of the GPU cannot be reached from convolve_signal."
  },
  {
   "property": "C86",
   "status": "proved",
   "theorems": [
    "Dsp.C86_exchange",
    "Dsp.C86_combine",
    "Dsp.C86_commutes",
    "Dsp.C86_linear",
    "Dsp.C86_linear_response",
    "Dsp.C86_scale",
    "Dsp.C86_shift",
    "Dsp.C86_reverse",
    "Dsp.C86_conj",
    "Dsp.C86_to_complex",
    "Dsp.C86_impulse",
    "Dsp.C86_gain",
    "Dsp.C86_adjoint"
   ],
   "note": "Over the real numbers, for programs in environments which accept their statements (Machine.SafeAll, C72; for long complex signals this contains the condition NoGap of C37)."
  },
  {
   "property": "C87",
   "status": "proved",
   "theorems": [
    "Dsp.C87_real",
    "Dsp.C87_complex",
    "Dsp.C87_smaller_real",
    "Dsp.C87_smaller_complex",
    "Dsp.C87_offset_scale",
    "Dsp.C87_offset_scale_complex",
    "Dsp.C87_square",
    "Dsp.C87_magnitude_squared",
    "Dsp.C87_mul_div",
    "Dsp.C87_add_sub",
    "Dsp.C87_cum_sum_additions",
    "Dsp.C87_cum_sum",
    "Dsp.C87_diff"
   ],
   "note": "Standard model of floating point arithmetic (Rounding, as in C73): no overflow and no underflow. The complex division is the formula of num-complex (trusted base). Divisions by zero are excluded where the theorem says so."
  },
  {
   "property": "C88",
   "status": "proved",
   "theorems": [
    "Dsp.C88_correlation",
    "Dsp.C88_delay",
    "Dsp.C88_swap",
    "Dsp.C88_linear",
    "Dsp.C88_scale",
    "Dsp.C88_bound",
    "Dsp.C88_zero_lag",
    "Dsp.C88_total",
    "Dsp.C88_autocorrelation"
   ],
   "note": "Over the real numbers, for a transform library which computes the DFT (IsDft), and programs in environments which accept their statements (Machine.SafeAll, C72). One point is excluded, see C54."
  },
  {
   "property": "C89",
   "status": "proved",
   "theorems": [
    "Dsp.C89_statistics",
    "Dsp.C89_sums",
    "Dsp.C89_offset",
    "Dsp.C89_scale",
    "Dsp.C89_scale_negative",
    "Dsp.C89_variance",
    "Dsp.C89_normalise",
    "Dsp.C89_order",
    "Dsp.C89_square",
    "Dsp.C89_add",
    "Dsp.C89_split",
    "Dsp.C89_split_total",
    "Dsp.C89_aggregate",
    "Dsp.C89_complex"
   ],
   "note": "Over the real numbers, for programs in environments which accept their statements (Machine.SafeAll, C72): statistics_split needs a point in every part, map_aggregate a storage without unused cells (C27)."
  },
  {
   "property": "C90",
   "status": "partial",
   "theorems": [
    "Dsp.C90_sum",
    "Dsp.C90_sum_complex",
    "Dsp.C90_dot",
    "Dsp.C90_dot_complex",
    "Dsp.C90_sum_prec",
    "Dsp.C90_sum_prec_violated",
    "Dsp.C90_sum_prec_f32",
    "Dsp.C90_statistics",
    "Dsp.C90_statistics_prec",
    "Dsp.C90_statistics_index_violated",
    "Dsp.C90_offset_scale",
    "Dsp.C90_scale_complex_violated",
    "Dsp.C90_cum_sum",
    "Dsp.C90_diff_cum_sum_violated",
    "Dsp.C90_statistics_complex",
    "Dsp.C90_statistics_prec_complex",
    "Dsp.C90_sum_prec_complex",
    "Dsp.C90_complex_maximum_infinite",
    "Dsp.C90_complex_index_violated",
    "Dsp.C90_dot_prec",
    "Dsp.C90_dot_prec_complex",
    "Dsp.C90_dot_prec_violated",
    "Dsp.C90_statistics_split",
    "Dsp.C90_split_prec_violated"
   ],
   "note": "The arithmetic of numbers is exact (rounding is C73, C82, C87). The compensated sums violate the expected result (C90_sum_prec_violated; C90_sum_prec says exactly when), the index of an infinite minimum can point to a NaN (C90_statistics_index_violated). The same for complex vectors (C90_statistics_complex, C90_statistics_prec_complex, C90_sum_prec_complex; C90_complex_index_violated: the index of a maximum zero can point to a NaN). statistics_split keeps the columns apart (C90_statistics_split), statistics_split_prec does not: its columns share one compensation, after a special value all columns with a later point are NaN (C90_split_prec_violated). dot_product_prec gives the expected number or NaN (C90_dot_prec, C90_dot_prec_complex), and NaN where dot_product gives an infinity (C90_dot_prec_violated, every register type). Convolution: C93; transforms with special values are not covered."
  },
  {
   "property": "C91",
   "status": "partial",
   "theorems": [
    "Dsp.C91_every_signal",
    "Dsp.C91_fft",
    "Dsp.C91_interpolate_partial",
    "Dsp.C91_interpft",
    "Dsp.C91_interpolate_response_partial",
    "Dsp.C91_interpolatei_partial",
    "Dsp.C91_interpolatei_ideal"
   ],
   "note": "The delay of an odd number of points and responses which do not fit are wrong in the code (C57_delay_iff, C57_response_iff, C58_iff say exactly which); the theorems exclude exactly the delays which are wrong for some signal. interpolatei does not report the new sampling distance. C91_every_signal shows that every signal is of the form the theorems ask for."
  },
  {
   "property": "C92",
   "status": "partial",
   "theorems": [
    "Dsp.C92_reverse",
    "Dsp.C92_shift",
    "Dsp.C92_swap_halves",
    "Dsp.C92_diff_sum",
    "Dsp.C92_interleave_decimate",
    "Dsp.C92_pad_resize",
    "Dsp.C92_offset",
    "Dsp.C92_scale",
    "Dsp.C92_conj",
    "Dsp.C92_window",
    "Dsp.C92_complex_real",
    "Dsp.C92_functions",
    "Dsp.C92_square_sqrt",
    "Dsp.C92_exponential",
    "Dsp.C92_add_sub",
    "Dsp.C92_mul_div",
    "Dsp.C92_real_imag",
    "Dsp.C92_mag_phase",
    "Dsp.C92_split_merge",
    "Dsp.C92_merge_split",
    "Dsp.C92_untouched",
    "Dsp.C92_clone",
    "Dsp.C92_interpft",
    "Dsp.C92_interpft_twice",
    "Dsp.C92_interpolate",
    "Dsp.C92_interpft_decimate",
    "Dsp.C92_interpft_real",
    "Dsp.C92_interpft_even_violated"
   ],
   "note": "interpft of a real vector with an even number of points there and back is wrong in the code (C92_interpft_even_violated); everything else is proved. Over the real numbers, for environments which accept the statements (Machine.SafeAll, C72); C92_functions assumes that the library of functions is exact. interpft followed by decimatei restores the numbers, not the sampling distance (decimatei does not update it)."
  },
  {
   "property": "C93",
   "status": "partial",
   "theorems": [
    "Dsp.C93_scalar",
    "Dsp.C93_simd",
    "Dsp.C93_convolve",
    "Dsp.C93_convolve_violated"
   ],
   "note": "Without registers proved; with registers the code violates the claim (C93_convolve_violated), C93_simd says exactly for which values. The convolution in frequency domain is not covered."
  },
  {
   "property": "C94",
   "status": "proved",
   "theorems": [
    "Dsp.C94_exponential",
    "Dsp.C94_exponential_drift",
    "Dsp.C94_abs",
    "Dsp.C94_magnitude_b",
    "Dsp.C94_window",
    "Dsp.C94_window_complex",
    "Dsp.C94_window_one_core",
    "Dsp.C94_unapply",
    "Dsp.C94_windows_exact",
    "Dsp.C94_hamming",
    "Dsp.C94_blackman_harris",
    "Dsp.C94_triangular"
   ],
   "note": "No overflow and no underflow; the accuracy of the library (sin, cos, sqrt, norm) is a parameter. magnitude_b: not for AVX registers with four f64 (C30_avx_f64_violated) and accepted addresses. Which window value a point gets is C16 (windowIndex); C94_window_one_core is the default setting. multiply_complex_exponential scales b with the sampling distance (C31_offset_violated)."
  },
  {
   "property": "C95",
   "status": "proved",
   "theorems": [
    "Dsp.C95_fft",
    "Dsp.C95_parseval",
    "Dsp.C95_ifft",
    "Dsp.C95_round_trip",
    "Dsp.C95_filter",
    "Dsp.C95_fft_reached"
   ],
   "note": "No overflow and no underflow; the accuracy of the FFT library in the Euclidean norm is a parameter (rustfft and clFFT are not modelled). ifft: at least two points, and the count a number of the floating point type (C95 count_exact: all below 2^24 for f32, 2^53 for f64); for one point see C06/C34. mul of complex numbers needs u <= 1/1000."
  },
  {
   "property": "C96",
   "status": "proved",
   "theorems": [
    "Dsp.C96_conj_error",
    "Dsp.C96_cross_correlation_error"
   ],
   "note": "No overflow and no underflow; the accuracy of the FFT library is a parameter (rustfft and clFFT are not modelled), u <= 1/1000, the limits of the check of the sampling distances are 1.1 and 0.9 up to a rounding. Signals of different lengths and one point: see C54."
  },
  {
   "property": "C97",
   "status": "proved",
   "theorems": [
    "Dsp.C97_windowed_fft",
    "Dsp.C97_windowed_fft_one_core",
    "Dsp.C97_windowed_round_trip",
    "Dsp.C97_hamming"
   ],
   "note": "No overflow and no underflow; the accuracy of the FFT library and of the window function are parameters, u <= 1/1000. With a window which is declared symmetric and several workers the weights are the values which the workers take (weightAt; C16 says for which settings these are the values of the window)."
  },
  {
   "property": "C98",
   "status": "partial",
   "theorems": [
    "Dsp.C98_interpolate_lin",
    "Dsp.C98_counter_violated",
    "Dsp.C98_panic_violated"
   ],
   "note": "Results with more numbers than the floating point type counts exactly (2^24 for f32) violate the claim: the counter of the loop stops (C98_counter_violated). For particular factors the last position is rounded up and the code panics, although the exact position is inside of the data (C98_panic_violated); C98_interpolate_lin asks for positions which stay inside with the roundings. No overflow, no underflow; the conversion of the rounded length to usize is exact."
  },
  {
   "property": "C99",
   "status": "proved",
   "theorems": [
    "Dsp.C99_decimate",
    "Dsp.C99_affine",
    "Dsp.C99_add",
    "Dsp.C99_line",
    "Dsp.C99_bounds",
    "Dsp.C99_twice",
    "Dsp.C99_overshoot",
    "Dsp.C99_overshoot_sharp",
    "Dsp.C99_parabola",
    "Dsp.C99_reverse"
   ],
   "note": "Over the real numbers, for programs in environments which accept their statements (Machine.SafeAll, C72); the environments of interpolate_hermite need at least three points, a whole factor m and 0 <= d < 1/m, those of interpolate_lin a factor f > 0 and 0 <= d < 1/(2 f) (what happens otherwise: C42, C50, C51). Rounding: C98."
  }
 ]
}