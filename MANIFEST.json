{
 "claims": [
  {
   "property": "C01",
   "status": "proved",
   "theorems": [
    "Verif.C01_get",
    "Verif.C01_assign_in",
    "Verif.C01_assign_out",
    "Verif.C113_from_slice",
    "Verif.C113_from_slice_mut"
   ],
   "note": "Any slice viewing live memory, any index."
  },
  {
   "property": "C02",
   "status": "proved",
   "theorems": [
    "Verif.C02_read_your_writes"
   ],
   "note": "Any history of checked writes through any number of overlapping live handles."
  },
  {
   "property": "C03",
   "status": "proved",
   "theorems": [
    "Verif.C03_get_wrapped",
    "Verif.C03_wrapAt_spec",
    "Verif.C03_empty_panics"
   ],
   "note": "Every isize index, every non-empty slice, every pointer width."
  },
  {
   "property": "C04",
   "status": "partial",
   "theorems": [
    "Verif.C04_four_wrapped_partial",
    "Verif.C04_four_wrapped_refuted"
   ],
   "note": "Refuted at indices above isize::MAX-3 (panic in debug, out-of-bounds read in release); holds everywhere else."
  },
  {
   "property": "C05",
   "status": "partial",
   "theorems": [
    "Verif.C05_sub_slice_inside_partial",
    "Verif.C05_sub_slice_inside_refuted",
    "Verif.C05_sub_slice_inside_actual"
   ],
   "note": "Refuted in release builds by an offset+length that wraps: every such window is granted and reaches out of the block (C05_sub_slice_inside_actual); holds when offset+length does not overflow."
  },
  {
   "property": "C06",
   "status": "partial",
   "theorems": [
    "Verif.C06_windows_partial",
    "Verif.C06_windows_refuted"
   ],
   "note": "Refuted: every window reaching exactly to the end of the slice is rejected. All other cases hold."
  },
  {
   "property": "C07",
   "status": "proved",
   "theorems": [
    "Verif.C07_lerp_safe"
   ],
   "note": "All 2^32 positions, every length and build configuration."
  },
  {
   "property": "C08",
   "status": "partial",
   "theorems": [
    "Verif.C08_whole_index_partial",
    "Verif.C08_last_index_partial",
    "Verif.C08_whole_index_refuted"
   ],
   "note": "Refuted for every buffer of 33..2^24 samples: the last whole index is rejected. Holds for all other indices, and for the last one up to 32 samples."
  },
  {
   "property": "C09",
   "status": "proved",
   "theorems": [
    "Verif.C09_negative",
    "Verif.C09_beyond",
    "Verif.C09_inside"
   ],
   "note": "Lengths 1..2^24, every non-NaN position; the accepted case also gives the exact blend."
  },
  {
   "property": "C10",
   "status": "proved",
   "theorems": [
    "Verif.C10_lerp_wrapped_inside",
    "Verif.C10_lerp_wrapped",
    "Verif.C10_lerp_wrapped_whole"
   ],
   "note": "Assumes micromath's floor meets FloorContract (shown satisfiable)."
  },
  {
   "property": "C11",
   "status": "partial",
   "theorems": [
    "Verif.C11_through_samples_partial",
    "Verif.C11_through_samples_actual",
    "Verif.C11_near_actual",
    "Verif.C11_through_samples_refuted"
   ],
   "note": "Refuted for every window of 4 or more; holds for window 2. At position i the code returns the sample at i-w/2+1: exactly for whole samples (C11_through_samples_actual), up to w/2^22 for all others (C11_near_actual)."
  },
  {
   "property": "C12",
   "status": "proved",
   "theorems": [
    "Verif.C12_lagrange_wrapped_inside",
    "Verif.C12_lagrange_wrapped"
   ],
   "note": "Assumes FloorContract; the first theorem needs nothing."
  },
  {
   "property": "C13",
   "status": "partial",
   "theorems": [
    "Verif.C13_four_points_partial",
    "Verif.C13_four_points_actual",
    "Verif.C13_position_actual",
    "Verif.C13_cubic_actual",
    "Verif.C13_four_points_refuted"
   ],
   "note": "Refuted at position 1 (the code evaluates at x, not at its fractional part); holds on [0,1). The actual theorems say what every position returns and how close that is to the cubic at x."
  },
  {
   "property": "C14",
   "status": "proved",
   "theorems": [
    "Verif.C14_null_slice",
    "Verif.C14_null_slice_interpolated"
   ],
   "note": "Every index, offset, length, value, memory."
  },
  {
   "property": "C15",
   "status": "proved",
   "theorems": [
    "Verif.C15_delay_exactly"
   ],
   "note": "Every buffer length, contents and input sequence."
  },
  {
   "property": "C16",
   "status": "partial",
   "theorems": [
    "Verif.C16_stays_inside_partial",
    "Verif.C16_stays_inside_refuted",
    "Verif.C16_not_inside",
    "Verif.C16_actual"
   ],
   "note": "Refuted: change_buffer to a shorter buffer keeps the cursor, so the next read or write is out of bounds. C16_actual: from then on the line plays and overwrites what follows the buffer, until it leaves the allocation. Holds for histories whose buffers never shrink below the cursor."
  },
  {
   "property": "C17",
   "status": "proved",
   "theorems": [
    "Verif.C17_read_wrapped_at",
    "Verif.C17_recent"
   ],
   "note": "Every history of writes and every isize offset that does not overflow cursor+offset."
  },
  {
   "property": "C18",
   "status": "proved",
   "theorems": [
    "Verif.C18_lerp_read_whole"
   ],
   "note": "Assumes FloorContract."
  },
  {
   "property": "C19",
   "status": "partial",
   "theorems": [
    "Verif.C19_lagrange_read_partial",
    "Verif.C19_near_actual",
    "Verif.C19_lagrange_read_refuted"
   ],
   "note": "Refuted: the read at a whole offset returns the sample one place older, exactly for whole samples (C19_lagrange_read_partial) and up to 5/2^22 for all others (C19_near_actual)."
  },
  {
   "property": "C20",
   "status": "proved",
   "theorems": [
    "Verif.C20_comb"
   ],
   "note": "Any arithmetic, so bit for bit in f32."
  },
  {
   "property": "C21",
   "status": "proved",
   "theorems": [
    "Verif.C21_comb_bounded"
   ],
   "note": "Binary32 with rounding, all time."
  },
  {
   "property": "C22",
   "status": "proved",
   "theorems": [
    "Verif.C22_comb_stable"
   ],
   "note": "Any ordered field."
  },
  {
   "property": "C23",
   "status": "proved",
   "theorems": [
    "Verif.C23_comb_echo",
    "Verif.C23_comb_impulse"
   ],
   "note": "Any field."
  },
  {
   "property": "C24",
   "status": "proved",
   "theorems": [
    "Verif.C24_all_pass",
    "Verif.C24_difference_equation"
   ],
   "note": "Any arithmetic; difference equation in any field of characteristic 0."
  },
  {
   "property": "C25",
   "status": "proved",
   "theorems": [
    "Verif.C25_all_pass_bounded"
   ],
   "note": "Binary32 with rounding, all time."
  },
  {
   "property": "C26",
   "status": "partial",
   "theorems": [
    "Verif.C26_all_pass_energy_refuted",
    "Verif.C26_dc_gain_partial",
    "Verif.C137_all_pass",
    "Verif.C137_all_pass_range"
   ],
   "note": "Refuted for every buffer length: the impulse response has energy 7/3. DC gain is 1; at other frequencies the gain is that of (3/2-z^L)/(z^L-1/2), between 1 and 5/3, both reached (C137)."
  },
  {
   "property": "C27",
   "status": "proved",
   "theorems": [
    "Verif.C27_difference_equation"
   ],
   "note": "Any field."
  },
  {
   "property": "C28",
   "status": "proved",
   "theorems": [
    "Verif.C28_linear",
    "Verif.C28_time_invariant"
   ],
   "note": "Any field."
  },
  {
   "property": "C29",
   "status": "proved",
   "theorems": [
    "Verif.C29_nan_poison"
   ],
   "note": "Any state, any later inputs and coefficients."
  },
  {
   "property": "C30",
   "status": "proved",
   "theorems": [
    "Verif.C30_zero_coeffs",
    "Verif.C30_zero_input"
   ],
   "note": "Binary32."
  },
  {
   "property": "C31",
   "status": "proved",
   "theorems": [
    "Verif.C31_lowpass",
    "Verif.C31_lowpass_measured"
   ],
   "note": "Real arithmetic; the second theorem states it about runs of process."
  },
  {
   "property": "C32",
   "status": "proved",
   "theorems": [
    "Verif.C32_highpass",
    "Verif.C32_highpass_measured"
   ],
   "note": "Real arithmetic."
  },
  {
   "property": "C33",
   "status": "proved",
   "theorems": [
    "Verif.C33_allpass",
    "Verif.C33_allpass_everywhere"
   ],
   "note": "Real arithmetic, every point of the unit circle."
  },
  {
   "property": "C34",
   "status": "proved",
   "theorems": [
    "Verif.C34_notch"
   ],
   "note": "Real arithmetic."
  },
  {
   "property": "C35",
   "status": "proved",
   "theorems": [
    "Verif.C35_stable",
    "Verif.C35_decays"
   ],
   "note": "Real arithmetic; cut designs included."
  },
  {
   "property": "C36",
   "status": "proved",
   "theorems": [
    "Verif.C36_bell",
    "Verif.C36_low_shelf"
   ],
   "note": "Real arithmetic, any square-root routine."
  },
  {
   "property": "C37",
   "status": "proved",
   "theorems": [
    "Verif.C37_low_shelf",
    "Verif.C37_bell"
   ],
   "note": "Real arithmetic."
  },
  {
   "property": "C38",
   "status": "proved",
   "theorems": [
    "Verif.C38_float_word_float",
    "Verif.C38_word_float_word"
   ],
   "note": "Every bit pattern, both build modes."
  },
  {
   "property": "C39",
   "status": "proved",
   "theorems": [
    "Verif.C39_word_round_trip",
    "Verif.C39_float_round_trip",
    "Verif.C39_components_round_trip"
   ],
   "note": "Every bit pattern."
  },
  {
   "property": "C40",
   "status": "partial",
   "theorems": [
    "Verif.C40_components_value",
    "Verif.C40_oversized_refuted",
    "Verif.C40_oversized_actual",
    "Verif.C40_oversized_float"
   ],
   "note": "The value formula is proved. The oversized-mantissa half is refuted: a mantissa of 24 or more bits is added into the exponent and sign fields."
  },
  {
   "property": "C41",
   "status": "proved",
   "theorems": [
    "Verif.C41_bit_reduce"
   ],
   "note": "Binary32, exact."
  },
  {
   "property": "C42",
   "status": "proved",
   "theorems": [
    "Verif.C42_error",
    "Verif.C42_idempotent",
    "Verif.C42_odd",
    "Verif.C42_monotone"
   ],
   "note": "Binary32."
  },
  {
   "property": "C43",
   "status": "partial",
   "theorems": [
    "Verif.C43_errors_partial",
    "Verif.C43_nan_actual",
    "Verif.C43_nan_refuted"
   ],
   "note": "Errors are as documented for every input; the NaN half is refuted: NaN becomes a zero."
  },
  {
   "property": "C44",
   "status": "proved",
   "theorems": [
    "Verif.C44_bits",
    "Verif.C44_over",
    "Verif.C44_shrinks",
    "Verif.C44_relative_error"
   ],
   "note": "Every bit pattern."
  },
  {
   "property": "C45",
   "status": "partial",
   "theorems": [
    "Verif.C45_class_refuted",
    "Verif.C45_class_partial"
   ],
   "note": "Refuted for NaN whose surviving mantissa bits are all cleared; everything else is proved."
  },
  {
   "property": "C46",
   "status": "proved",
   "theorems": [
    "Verif.C46_errors"
   ],
   "note": "Binary32, every pair of samples and every factor."
  },
  {
   "property": "C47",
   "status": "partial",
   "theorems": [
    "Verif.C47_nan_refuted",
    "Verif.C47_number_partial",
    "Verif.C47_nan_actual"
   ],
   "note": "Refuted: a NaN factor passes the range check and the result is NaN. For a factor that is a number the result is a number."
  },
  {
   "property": "C48",
   "status": "proved",
   "theorems": [
    "Verif.C48_endpoints"
   ],
   "note": "Binary32."
  },
  {
   "property": "C49",
   "status": "proved",
   "theorems": [
    "Verif.C49_lerp",
    "Verif.C49_between"
   ],
   "note": "Binary32; within one rounding of the exact blend, and between the samples up to that rounding."
  },
  {
   "property": "C50",
   "status": "proved",
   "theorems": [
    "Verif.C50_polynomial",
    "Verif.C50_nodes"
   ],
   "note": "Any field, every window length."
  },
  {
   "property": "C51",
   "status": "proved",
   "theorems": [
    "Verif.C51_panics",
    "Verif.C51_panics_small",
    "Verif.C51_value"
   ],
   "note": "Every window; without a panic the result is the sum of C50."
  },
  {
   "property": "C52",
   "status": "proved",
   "theorems": [
    "Verif.C52_four"
   ],
   "note": "Binary32, bit for bit, every x <= 3 that is not NaN."
  },
  {
   "property": "C53",
   "status": "proved",
   "theorems": [
    "Verif.C53_exact",
    "Verif.C53_seconds",
    "Verif.C53_millis"
   ],
   "note": "Exact in any field; relative error in binary32."
  },
  {
   "property": "C54",
   "status": "partial",
   "theorems": [
    "Verif.C54_simpson_refuted",
    "Verif.C54_simpson_actual",
    "Verif.C54_affine_actual",
    "Verif.C54_small_panics"
   ],
   "note": "Refuted: the odd points are counted once too often, so every affine integrand comes out multiplied by 5/3. What the code does compute is proved for every N and every integrand."
  },
  {
   "property": "C55",
   "status": "proved",
   "theorems": [
    "Verif.C55_accurate",
    "Verif.C55_odd_increasing"
   ],
   "note": "Real arithmetic; powi taken as exact."
  },
  {
   "property": "C56",
   "status": "partial",
   "theorems": [
    "Verif.C56_exact_partial",
    "Verif.C56_shape_actual",
    "Verif.C56_monotone_refuted",
    "Verif.C56_float_partial",
    "Verif.C56_overflow_actual",
    "Verif.FMath.C56_far_actual",
    "Verif.FMath.C56_bounded_actual",
    "Verif.C56_bounded_refuted"
   ],
   "note": "Odd up to 2^62 in float arithmetic. Monotonicity is refuted: the approximation falls beyond sqrt 2. For finite x the bound holds exactly below 2^64 (the result is 0 from 2^30 on); at 2^64 and beyond the result is NaN."
  },
  {
   "property": "C57",
   "status": "partial",
   "theorems": [
    "Verif.C57_exact",
    "Verif.C57_real",
    "Verif.C57_cosh_even",
    "Verif.C57_sinh_odd_partial",
    "Verif.C57_sinh_zero_actual",
    "Verif.C57_sinh_odd_refuted"
   ],
   "note": "Everything holds except the sign of zero: sinh(-0) is +0."
  },
  {
   "property": "C58",
   "status": "proved",
   "theorems": [
    "Verif.C58_sin",
    "Verif.C58_unchecked_panics"
   ],
   "note": "Every phase, every degree, both build modes."
  },
  {
   "property": "C59",
   "status": "proved",
   "theorems": [
    "Verif.C59_accurate"
   ],
   "note": "Every phase, against the real sine."
  },
  {
   "property": "C60",
   "status": "partial",
   "theorems": [
    "Verif.C60_range_partial",
    "Verif.C60_unit_refuted",
    "Verif.C60_cos_partial",
    "Verif.C60_cos_refuted"
   ],
   "note": "Refuted: fixed_point_sin(-PI/2) and fixed_point_cos(PI) return -32768/32767. That is the only excess: every argument gives a number of [-32768/32767, 1]."
  },
  {
   "property": "C61",
   "status": "proved",
   "theorems": [
    "Verif.C61_lookup_sin",
    "Verif.C61_lookup"
   ],
   "note": "Every f32; assumes RemContract of rem_euclid (shown satisfiable)."
  },
  {
   "property": "C62",
   "status": "partial",
   "theorems": [
    "Verif.C62_in_table_refuted",
    "Verif.C62_in_table_partial"
   ],
   "note": "Refuted at exactly two arguments, 0.25 and 0.75, which read one entry past the end; every other f32 stays in the table."
  },
  {
   "property": "C63",
   "status": "proved",
   "theorems": [
    "Verif.C63_outside",
    "Verif.C63_range",
    "Verif.C63_symmetry"
   ],
   "note": "Every f32 other than the two bad arguments of C62."
  },
  {
   "property": "C64",
   "status": "proved",
   "theorems": [
    "Verif.C64_table",
    "Verif.C64_zero_step"
   ],
   "note": "Every table size."
  },
  {
   "property": "C65",
   "status": "proved",
   "theorems": [
    "Verif.C65_phase",
    "Verif.C65_same_advance"
   ],
   "note": "closed form of the phase after any number of reads by either method"
  },
  {
   "property": "C66",
   "status": "proved",
   "theorems": [
    "Verif.C66_counter",
    "Verif.C66_output",
    "Verif.C66_setters"
   ],
   "note": "counter, settings and outputs after an arbitrary history of calls and setters"
  },
  {
   "property": "C67",
   "status": "partial",
   "theorems": [
    "Verif.C67_refuted",
    "Verif.C67_partial",
    "Verif.C67_actual_reached"
   ],
   "note": "refuted: 1.0 is returned for the 128 largest integer phases; exact characterisation, range [0,1] and error bound proved, and the bad value shown reachable without any phase shift"
  },
  {
   "property": "C68",
   "status": "proved",
   "theorems": [
    "Verif.C68_range"
   ],
   "note": "every accumulator state, so every history"
  },
  {
   "property": "C69",
   "status": "partial",
   "theorems": [
    "Verif.C69_refuted",
    "Verif.C69_partial",
    "Verif.C69_actual"
   ],
   "note": "refuted: 3.0 is returned where the phase rounds to 1.0; exactly -1/1 with the right halves everywhere else; assumes FloorContract of the external floor"
  },
  {
   "property": "C70",
   "status": "proved",
   "theorems": [
    "Verif.C70_saw",
    "Verif.C70_tri",
    "Verif.C70_saw_mono",
    "Verif.C70_tri_mono"
   ],
   "note": "float outputs against the ideal waves with error bounds, and monotonicity in the integer phase"
  },
  {
   "property": "C71",
   "status": "partial",
   "theorems": [
    "Verif.C71_refuted",
    "Verif.C71_partial",
    "Verif.C71_actual",
    "Verif.C71_actual_reached"
   ],
   "note": "refuted: the last 1/len of every cycle reads past the table; safe and correct below that; every table of 2..2^23 samples is overrun within one cycle at any low enough frequency"
  },
  {
   "property": "C72",
   "status": "partial",
   "theorems": [
    "Verif.C72_refuted",
    "Verif.C72_partial",
    "Verif.C72_actual"
   ],
   "note": "refuted: NaN and frequencies above Nyquist are accepted (and the receiver is consumed); Zero and Negative errors proved exactly"
  },
  {
   "property": "C73",
   "status": "proved",
   "theorems": [
    "Verif.C73_step",
    "Verif.C73_saturation"
   ],
   "note": "sample rates from 2^-90 to 2^120 count as the normal range"
  },
  {
   "property": "C74",
   "status": "proved",
   "theorems": [
    "Verif.C74_pan"
   ],
   "note": "NaN amounts pass the check, as the iff says"
  },
  {
   "property": "C75",
   "status": "proved",
   "theorems": [
    "Verif.C75_gains",
    "Verif.C75_monotone",
    "Verif.C75_exact"
   ],
   "note": ""
  },
  {
   "property": "C76",
   "status": "partial",
   "theorems": [
    "Verif.C76_swap",
    "Verif.C76_extremes_refuted",
    "Verif.C76_extremes_partial",
    "Verif.C76_checked",
    "Verif.C76_checked_extremes"
   ],
   "note": "swap law proved bit for bit for every amount and sample; the extremes hold for finite samples and fail for infinite ones (inf*0); stereo extremes assume sqrt 0 = 0 and sqrt 1 = 1"
  },
  {
   "property": "C77",
   "status": "proved",
   "theorems": [
    "Verif.C77_power",
    "Verif.C77_energy"
   ],
   "note": "real arithmetic with the real square root"
  },
  {
   "property": "C78",
   "status": "proved",
   "theorems": [
    "Verif.C78_clip",
    "Verif.C78_monotone"
   ],
   "note": "core's clamp is modelled from its documentation"
  },
  {
   "property": "C79",
   "status": "partial",
   "theorems": [
    "Verif.C79_refuted",
    "Verif.C79_partial",
    "Verif.C79_actual"
   ],
   "note": "refuted: the three soft clippers panic (todo!) exactly on [-1,1] and NaN"
  },
  {
   "property": "C80",
   "status": "partial",
   "theorems": [
    "Verif.C80_refuted",
    "Verif.C80_partial"
   ],
   "note": "refuted only in 'never Ok(NaN)': a NaN input gives Ok(NaN); everything else proved for every log10 meeting Log10Contract"
  },
  {
   "property": "C81",
   "status": "proved",
   "theorems": [
    "Verif.C81_inverse",
    "Verif.C81_increasing"
   ],
   "note": "real arithmetic with the real logarithm and power"
  },
  {
   "property": "C82",
   "status": "partial",
   "theorems": [
    "Verif.C82_refuted",
    "Verif.C82_partial",
    "Verif.C82_actual",
    "Verif.C82_saturating_actual",
    "Verif.C82_nan_actual"
   ],
   "note": "refuted: with a time far below one sample the power overflows and sustain 1 gives inf*0 = NaN; for times of at least one sample and slopes up to 20 every history is panic free and in [0,1], assuming PowfModerate of the external powf; for times and slopes of any size a sample is in [0,1] or NaN, exactly when it is NaN is an equivalence, and no NaN occurs if the power does not overflow"
  },
  {
   "property": "C83",
   "status": "proved",
   "theorems": [
    "Verif.C83_state_graph"
   ],
   "note": "every state and call, any powf whatsoever"
  },
  {
   "property": "C84",
   "status": "partial",
   "theorems": [
    "Verif.C84_refuted",
    "Verif.C84_partial",
    "Verif.C84_cycle_partial",
    "Verif.C84_actual"
   ],
   "note": "refuted: the NaN state of C82 never leaves Decay; for times of at least one sample each stage ends within N ticks, N >= 8/(7*rate); for times of any length Attack always ends, and Decay and Release end or return NaN"
  },
  {
   "property": "C85",
   "status": "proved",
   "theorems": [
    "Verif.C85_idle_silent",
    "Verif.C85_reset_silent",
    "Verif.C85_sustain_holds"
   ],
   "note": "arbitrary histories without trigger_on (idle) or without triggers and reset (sustain)"
  },
  {
   "property": "C86",
   "status": "partial",
   "theorems": [
    "Verif.C86_refuted",
    "Verif.C86_partial",
    "Verif.C86_actual"
   ],
   "note": "refuted: set_sustain while sustaining leaves a stale level from which the release starts; proved for all histories without that call"
  },
  {
   "property": "C87",
   "status": "partial",
   "theorems": [
    "Verif.C87_refuted",
    "Verif.C87_partial",
    "Verif.C87_actual"
   ],
   "note": "refuted only by the NaN of C82; proved for times of any length unless sustain is 1 and the power infinite"
  },
  {
   "property": "C88",
   "status": "partial",
   "theorems": [
    "Verif.C88_refuted",
    "Verif.C88_partial",
    "Verif.C88_actual"
   ],
   "note": "refuted: the phase, not the level, is carried over; after a completed decay a retrigger jumps to 1 at once"
  },
  {
   "property": "C89",
   "status": "partial",
   "theorems": [
    "Verif.C89_refuted",
    "Verif.C89_partial",
    "Verif.C89_actual",
    "Verif.C106_new",
    "Verif.C106_set"
   ],
   "note": "refuted: every time above 2 s is treated as 2 s; relative error 2^-22 up to 2 s"
  },
  {
   "property": "C90",
   "status": "partial",
   "theorems": [
    "Verif.C90_refuted",
    "Verif.C90_partial"
   ],
   "note": "refuted: set_sr rescales nothing; every later sample is unchanged by it"
  },
  {
   "property": "C91",
   "status": "proved",
   "theorems": [
    "Verif.C91_new_panics",
    "Verif.C91_calls_panic"
   ],
   "note": "every f32 argument, NaN and infinities included"
  },
  {
   "property": "C92",
   "status": "proved",
   "theorems": [
    "Verif.C92_sin"
   ],
   "note": "real sine from Mathlib; rem_euclid is a parameter with RemContract"
  },
  {
   "property": "C93",
   "status": "proved",
   "theorems": [
    "Verif.C93_cos"
   ],
   "note": "real cosine from Mathlib; rem_euclid is a parameter with RemContract"
  },
  {
   "property": "C94",
   "status": "partial",
   "theorems": [
    "Verif.C94_refuted",
    "Verif.C94_partial",
    "Verif.C94_actual"
   ],
   "note": "refuted: the table stops at phase 28658 of 32768 and is read as if it covered the half turn, so lookup_sin(0) is about -0.098; C94_partial bounds the error by 1/5 + |x|/10^6, C94_actual gives the function really computed"
  },
  {
   "property": "C95",
   "status": "proved",
   "theorems": [
    "Verif.C95_sine_oscillator"
   ],
   "note": "every state; rem_euclid is a parameter with RemContract"
  },
  {
   "property": "C96",
   "status": "proved",
   "theorems": [
    "Verif.C96_state",
    "Verif.C96_output"
   ],
   "note": "rem_euclid and floor are parameters with contracts"
  },
  {
   "property": "C97",
   "status": "partial",
   "theorems": [
    "Verif.C97_refuted",
    "Verif.C97_partial",
    "Verif.C97_actual"
   ],
   "note": "refuted: -1/4 turn is no shift at all; C97_partial is the claim for 0 <= s < 1, C97_actual tells what the other arguments do"
  },
  {
   "property": "C98",
   "status": "proved",
   "theorems": [
    "Verif.C98_state",
    "Verif.C98_fault"
   ],
   "note": "the possible out-of-range read is C71's"
  },
  {
   "property": "C99",
   "status": "proved",
   "theorems": [
    "Verif.C99_modulated",
    "Verif.C99_stable"
   ],
   "note": "C99_modulated for any arithmetic (F32 included), the bound in exact arithmetic"
  },
  {
   "property": "C100",
   "status": "proved",
   "theorems": [
    "Verif.C100_delay",
    "Verif.C100_comb",
    "Verif.C100_all_pass"
   ],
   "note": "any arithmetic; a buffer not longer than the cursor is C16's subject"
  },
  {
   "property": "C101",
   "status": "partial",
   "theorems": [
    "Verif.C101_refuted",
    "Verif.C101_partial",
    "Verif.C101_actual"
   ],
   "note": "refuted: the NaN stays in the low-pass state and the output is NaN for ever; C101_partial: until the NaN leaves the buffer nothing changes"
  },
  {
   "property": "C102",
   "status": "proved",
   "theorems": [
    "Verif.C102_stays",
    "Verif.C102_confined"
   ],
   "note": "F32 arithmetic, every run"
  },
  {
   "property": "C103",
   "status": "proved",
   "theorems": [
    "Verif.C103_attack",
    "Verif.C103_attack_end",
    "Verif.C103_decay",
    "Verif.C103_release",
    "Verif.C103_cycle"
   ],
   "note": "F32 arithmetic, any powf; C103_cycle is a whole cycle of a new envelope"
  },
  {
   "property": "C104",
   "status": "proved",
   "theorems": [
    "Verif.C104_attack",
    "Verif.C104_decay",
    "Verif.C104_release"
   ],
   "note": "F32 arithmetic, powf per PowfModerate and PowfBelow"
  },
  {
   "property": "C105",
   "status": "proved",
   "theorems": [
    "Verif.C105_attack",
    "Verif.C105_decay",
    "Verif.C105_release"
   ],
   "note": "F32 arithmetic, powf per PowfModerate and PowfMono"
  },
  {
   "property": "C106",
   "status": "proved",
   "theorems": [
    "Verif.C106_new",
    "Verif.C106_set",
    "Verif.C106_attack_only",
    "Verif.C106_decay_only",
    "Verif.C106_release_only",
    "Verif.C106_sustain_only"
   ],
   "note": "F32 arithmetic, any powf"
  },
  {
   "property": "C107",
   "status": "proved",
   "theorems": [
    "Verif.C107_cutoff"
   ],
   "note": "exact arithmetic over the reals, powi exact"
  },
  {
   "property": "C108",
   "status": "proved",
   "theorems": [
    "Verif.C108_sinusoid",
    "Verif.C108_lowpass"
   ],
   "note": "exact arithmetic over the reals"
  },
  {
   "property": "C109",
   "status": "proved",
   "theorems": [
    "Verif.C109_bounded"
   ],
   "note": "exact arithmetic over the reals"
  },
  {
   "property": "C110",
   "status": "partial",
   "theorems": [
    "Verif.C110_refuted",
    "Verif.C110_partial",
    "Verif.C110_actual"
   ],
   "note": "refuted: below 2^-16 the result is 0 instead of 1; the error is at most 301e-6/|x| + 1e-6 everywhere"
  },
  {
   "property": "C111",
   "status": "partial",
   "theorems": [
    "Verif.C111_refuted",
    "Verif.C111_actual"
   ],
   "note": "refuted: the Simpson weights make si five thirds of the sine integral, shown to 1/20 for every |x| <= 4"
  },
  {
   "property": "C112",
   "status": "proved",
   "theorems": [
    "Verif.C112_exact",
    "Verif.C112_float",
    "Verif.C112_ends",
    "Verif.C112_swap"
   ],
   "note": "any field and F32 arithmetic"
  },
  {
   "property": "C113",
   "status": "proved",
   "theorems": [
    "Verif.C113_from_slice",
    "Verif.C113_from_slice_mut",
    "Verif.C113_as_slice",
    "Verif.C113_change_slice"
   ],
   "note": ""
  },
  {
   "property": "C114",
   "status": "proved",
   "theorems": [
    "Verif.C114_bounded",
    "Verif.C114_fine"
   ],
   "note": "F32 arithmetic"
  },
  {
   "property": "C115",
   "status": "proved",
   "theorems": [
    "Verif.C115_tracks"
   ],
   "note": "F32 arithmetic against the reals"
  },
  {
   "property": "C116",
   "status": "proved",
   "theorems": [
    "Verif.C116_stable",
    "Verif.C116_down",
    "Verif.C116_low",
    "Verif.C116_bell_cut",
    "Verif.C116_low_shelf_cut"
   ],
   "note": "F32 arithmetic; PowiNear and SqrtRough are the contracts of the external powi and sqrt"
  },
  {
   "property": "C117",
   "status": "proved",
   "theorems": [
    "Verif.C117_fast_tan"
   ],
   "note": "F32 arithmetic; PowiNear is the contract of the external powi (met by repeated multiplication)"
  },
  {
   "property": "C118",
   "status": "proved",
   "theorems": [
    "Verif.C118_never_blows_up",
    "Verif.C118_bass"
   ],
   "note": "F32 arithmetic from design to output"
  },
  {
   "property": "C119",
   "status": "proved",
   "theorems": [
    "Verif.C119_independent"
   ],
   "note": "any schedule, any disjoint slices"
  },
  {
   "property": "C120",
   "status": "partial",
   "theorems": [
    "Verif.C120_refuted",
    "Verif.C120_actual",
    "Verif.C120_partial"
   ],
   "note": "refuted: copies share the buffer but not the cursor, so the original reads what the copy wrote; independent once the copy has a buffer of its own (change_buffer)"
  },
  {
   "property": "C121",
   "status": "partial",
   "theorems": [
    "Verif.C121_refuted",
    "Verif.C121_actual",
    "Verif.C121_partial"
   ],
   "note": "refuted: from_slice keeps no lifetime, reading after the array is gone is undefined behaviour; dropping other arrays does no harm"
  },
  {
   "property": "C122",
   "status": "proved",
   "theorems": [
    "Verif.C122_bounded"
   ],
   "note": "F32 arithmetic, settings changed at every tick"
  },
  {
   "property": "C123",
   "status": "partial",
   "theorems": [
    "Verif.C123_refuted",
    "Verif.C123_actual",
    "Verif.C123_partial"
   ],
   "note": "refuted: an impulse of 1.0 leaves a comb with default settings ringing at 2^-148 for ever; it does come down to 2^-148 within 1096 rounds of the buffer"
  },
  {
   "property": "C124",
   "status": "proved",
   "theorems": [
    "Verif.C124_all_pass_silent"
   ],
   "note": "F32 arithmetic, denormals included"
  },
  {
   "property": "C125",
   "status": "proved",
   "theorems": [
    "Verif.C125_comb",
    "Verif.C125_all_pass"
   ],
   "note": "F32 arithmetic against exact rationals"
  },
  {
   "property": "C126",
   "status": "partial",
   "theorems": [
    "Verif.C126_constant_refuted",
    "Verif.C126_range_refuted",
    "Verif.C126_monotone_refuted",
    "Verif.C126_refuted",
    "Verif.C126_exact_partial",
    "Verif.C126_partial",
    "Verif.C126_near_partial"
   ],
   "note": "refuted: lerp(3,3,0.1) is below 3, lerp(0.7,0.7,0.15) above 0.7, and from 1 to 2 it goes back by an ulp; true when the ends have opposite signs, and up to 6/2^24 always"
  },
  {
   "property": "C127",
   "status": "proved",
   "theorems": [
    "Verif.C127_comb_linear",
    "Verif.C127_all_pass_linear",
    "Verif.C127_comb_time_invariant",
    "Verif.C127_all_pass_time_invariant"
   ],
   "note": "exact arithmetic, any field"
  },
  {
   "property": "C128",
   "status": "partial",
   "theorems": [
    "Verif.C128_refuted",
    "Verif.C128_actual",
    "Verif.C128_pitch_actual",
    "Verif.C128_partial"
   ],
   "note": "refuted: 440 Hz at 48 kHz is off by more than 1/100 turn after 2^26 samples; the drift is linear, at most 2^-32 + 2^-22 f/sr turns per sample"
  },
  {
   "property": "C129",
   "status": "proved",
   "theorems": [
    "Verif.C129_bit_reduce",
    "Verif.C129_bit_reduce_exp"
   ],
   "note": "F32, bit for bit"
  },
  {
   "property": "C130",
   "status": "proved",
   "theorems": [
    "Verif.C130_gains",
    "Verif.C130_power"
   ],
   "note": "F32 arithmetic; the square root by contract, met by micromath's with eps = 0.126"
  },
  {
   "property": "C131",
   "status": "proved",
   "theorems": [
    "Verif.C131_circle"
   ],
   "note": "F32 arithmetic against the real functions; rem_euclid by contract"
  },
  {
   "property": "C132",
   "status": "partial",
   "theorems": [
    "Verif.C132_refuted",
    "Verif.C132_actual",
    "Verif.C132_partial"
   ],
   "note": "refuted: the offset is added to the cursor in f32, which rounds its fraction; off by at most (L+2)/2^24 samples, exact when the fraction has k bits with L*2^k <= 2^24"
  },
  {
   "property": "C133",
   "status": "proved",
   "theorems": [
    "Verif.C133_accuracy",
    "Verif.C133_overshoot"
   ],
   "note": "F32 arithmetic against the exact cubic"
  },
  {
   "property": "C134",
   "status": "proved",
   "theorems": [
    "Verif.C134_monotone",
    "Verif.C134_slope",
    "Verif.C134_peak"
   ],
   "note": "exact arithmetic; frequencies as points of the unit circle, as heard through C108"
  },
  {
   "property": "C135",
   "status": "proved",
   "theorems": [
    "Verif.C135_notch_range",
    "Verif.C135_notch_width",
    "Verif.C135_bell_range",
    "Verif.C135_bell_slopes"
   ],
   "note": "exact arithmetic"
  },
  {
   "property": "C136",
   "status": "partial",
   "theorems": [
    "Verif.C136_refuted",
    "Verif.C136_actual",
    "Verif.C136_partial",
    "Verif.C136_monotone_partial"
   ],
   "note": "refuted: at q = 1 a shelf of gain 2 reaches sqrt 5; true exactly for q = 1/sqrt 2 (`C136_actual`)"
  },
  {
   "property": "C137",
   "status": "proved",
   "theorems": [
    "Verif.C137_comb",
    "Verif.C137_comb_range",
    "Verif.C137_comb_constant",
    "Verif.C137_all_pass",
    "Verif.C137_all_pass_range"
   ],
   "note": "exact arithmetic, on the model's runs"
  },
  {
   "property": "C138",
   "status": "proved",
   "theorems": [
    "Verif.FMath.C138_exact",
    "Verif.FMath.C138_exact_abs",
    "Verif.FMath.C138_float"
   ],
   "note": "F32 arithmetic against Real.tanh"
  },
  {
   "property": "C139",
   "status": "proved",
   "theorems": [
    "Verif.C139_voice",
    "Verif.C139_silence"
   ],
   "note": "F32 arithmetic, block memory, all touches; micromath functions under their contracts"
  },
  {
   "property": "C140",
   "status": "proved",
   "theorems": [
    "Verif.C140_zeros"
   ],
   "note": "rounded coefficients, gains and runs of the filter in exact arithmetic"
  },
  {
   "property": "C141",
   "status": "proved",
   "theorems": [
    "Verif.C141_dc",
    "Verif.C141_off"
   ],
   "note": "rounded coefficients, gains and runs of the filter in exact arithmetic; C141_off shows the size of the bounds is right"
  },
  {
   "property": "C142",
   "status": "proved",
   "theorems": [
    "Verif.C142_network"
   ],
   "note": "any arithmetic; wires are arbitrary functions of the input and of the answers earlier in the tick"
  },
  {
   "property": "C143",
   "status": "proved",
   "theorems": [
    "Verif.C143_reverb"
   ],
   "note": "F32 arithmetic, block memory; the reverb is a network of C142"
  },
  {
   "property": "C144",
   "status": "proved",
   "theorems": [
    "Verif.FMath.C144_table"
   ],
   "note": "Simpson's rule in integers checked by the kernel, its error against the integral proved"
  },
  {
   "property": "C145",
   "status": "proved",
   "theorems": [
    "Verif.FMath.C145_lookup"
   ],
   "note": "the two excluded phases are the reads past the table of C62"
  },
  {
   "property": "C146",
   "status": "proved",
   "theorems": [
    "Verif.C146_waveform",
    "Verif.C146_sine"
   ],
   "note": "tables up to 2^24 samples, each sample at most 2 in magnitude; the phases that leave the table are those of C71"
  },
  {
   "property": "C147",
   "status": "proved",
   "theorems": [
    "Verif.C147_notch",
    "Verif.C147_allpass",
    "Verif.C147_bell"
   ],
   "note": "exact arithmetic, every input; powi assumed exact"
  },
  {
   "property": "C148",
   "status": "proved",
   "theorems": [
    "Verif.C148_lowpass",
    "Verif.C148_highpass",
    "Verif.C148_chain"
   ],
   "note": "exact arithmetic; the warped frequency is the code's own tangent polynomial (C107 relates it to the cutoff)"
  },
  {
   "property": "C149",
   "status": "proved",
   "theorems": [
    "Verif.C149_crossover",
    "Verif.C149_second_order"
   ],
   "note": "exact arithmetic; the fourth-order sum sample by sample, the second-order one as a gain"
  },
  {
   "property": "C150",
   "status": "proved",
   "theorems": [
    "Verif.C150_phase",
    "Verif.C150_functional",
    "Verif.C150_wavetable"
   ],
   "note": "an equivalence: the period is the least one"
  },
  {
   "property": "C151",
   "status": "proved",
   "theorems": [
    "Verif.C151_sawtooth",
    "Verif.C151_triangle",
    "Verif.C151_sine",
    "Verif.C151_rectangle"
   ],
   "note": "means of the float outputs; the rectangle's 3.0 values of C69 included"
  },
  {
   "property": "C152",
   "status": "proved",
   "theorems": [
    "Verif.C152_slice",
    "Verif.C152_interpolated",
    "Verif.C152_delay",
    "Verif.C152_functions",
    "Verif.C152_bits",
    "Verif.C152_oscillators",
    "Verif.C152_network",
    "Verif.C152_voice"
   ],
   "note": "one direction only: an example shows a release build returning where a debug build panics"
  },
  {
   "property": "C153",
   "status": "partial",
   "theorems": [
    "Verif.C153_refuted",
    "Verif.C153_slice_partial",
    "Verif.C153_interpolated_partial",
    "Verif.C153_delay_partial",
    "Verif.C153_network_partial",
    "Verif.C153_voice_partial",
    "Verif.C153_tables_partial"
   ],
   "note": "beyond 2^31 the index of the wrapped readers saturates at isize::MAX of the target; proved for indices up to 2^30 and for everything that does not take an index from the caller"
  },
  {
   "property": "C154",
   "status": "proved",
   "theorems": [
    "Verif.C154_readers",
    "Verif.C154_biquad",
    "Verif.C154_network",
    "Verif.C154_level",
    "Verif.C154_wavetable"
   ],
   "note": ""
  },
  {
   "property": "C155",
   "status": "proved",
   "theorems": [
    "Verif.C155_bounded",
    "Verif.C155_tracks",
    "Verif.C155_margin"
   ],
   "note": "extends C114 and C115 to real and double poles"
  },
  {
   "property": "C156",
   "status": "proved",
   "theorems": [
    "Verif.C156_never_blows_up",
    "Verif.C156_chain",
    "Verif.C156_bass",
    "Verif.C156_bass_chain"
   ],
   "note": "F32 arithmetic from design to output; PowiNear and SqrtWithin are the contracts of the external powi and sqrt"
  },
  {
   "property": "C157",
   "status": "proved",
   "theorems": [
    "Verif.C157_panics",
    "Verif.C157_zero",
    "Verif.C157_bit_reduce",
    "Verif.C157_bit_reduce_exp"
   ],
   "note": "extends C41, C43 and C44 beyond the guards of the checked forms"
  },
  {
   "property": "C158",
   "status": "proved",
   "theorems": [
    "Verif.C158_counter",
    "Verif.C158_output"
   ],
   "note": ""
  },
  {
   "property": "C159",
   "status": "partial",
   "theorems": [
    "Verif.C159_refuted",
    "Verif.C159_partial",
    "Verif.C159_actual"
   ],
   "note": "refuted: 110 Hz runs away from 55 Hz at 48 kHz because each step is truncated by itself; exact when the lower step is 2^23 or more, otherwise a constant lead below 2^k per sample"
  },
  {
   "property": "C160",
   "status": "proved",
   "theorems": [
    "Verif.C160_design_exact",
    "Verif.C160_design_float",
    "Verif.C160_phase",
    "Verif.C160_oscillator",
    "Verif.C160_wavetable",
    "Verif.C160_envelope"
   ],
   "note": "floats: factors 2^k; envelope times up to 2 s (C89)"
  },
  {
   "property": "C161",
   "status": "proved",
   "theorems": [
    "Verif.C161_compiles",
    "Verif.C161_fails",
    "Verif.C64_table"
   ],
   "note": "extends C64 to sizes above u16::MAX"
  },
  {
   "property": "C162",
   "status": "proved",
   "theorems": [
    "Verif.C162_response",
    "Verif.C162_corner"
   ],
   "note": ""
  },
  {
   "property": "C163",
   "status": "proved",
   "theorems": [
    "Verif.C163_biquad",
    "Verif.C163_network",
    "Verif.C163_needed"
   ],
   "note": "the side condition is computed by running the same code on floats that carry a mark"
  },
  {
   "property": "C164",
   "status": "partial",
   "theorems": [
    "Verif.C164_refuted",
    "Verif.C164_partial",
    "Verif.C164_step_partial",
    "Verif.C164_odd"
   ],
   "note": "refuted: from phase 32760 to 32761 it falls from 32765 to 32764; no later value is more than 2 units lower, each step is between -1 and +2 units, and the values at z and -z sum to 0, -1, -2 or -3 units; all bounds are reached"
  },
  {
   "property": "C165",
   "status": "proved",
   "theorems": [
    "Verif.C165_sawtooth",
    "Verif.C165_triangle",
    "Verif.C165_sine",
    "Verif.C165_rectangle"
   ],
   "note": "float arithmetic; spec is the mean square over the exact period; the triangle needs a step above 0, the sine one that is neither 0 nor exactly half the sample rate"
  },
  {
   "property": "C166",
   "status": "proved",
   "theorems": [
    "Verif.C166_frequency",
    "Verif.C166_rate",
    "Verif.C166_distinct"
   ],
   "note": "F32 arithmetic, with the saturating conversion; spec MovesBy speaks of the counter only"
  },
  {
   "property": "C167",
   "status": "partial",
   "theorems": [
    "Verif.C167_refuted",
    "Verif.C167_partial",
    "Verif.C167_stuck",
    "Verif.C167_recovers",
    "Verif.C167_forgets",
    "Verif.C167_forgets_float"
   ],
   "note": "falling silent is refuted: the low-pass at 3 kHz (q 1/2, 48 kHz) rings on at 2^-148 for ever after a single sample of 1; in the end nothing but zeros and denormals comes out; the forgetting is proved, exactly and in floats up to what rounding makes of the input"
  },
  {
   "property": "C168",
   "status": "proved",
   "theorems": [
    "Verif.C168_decibels",
    "Verif.C168_ratio",
    "Verif.C168_there_and_back",
    "Verif.C168_back_and_there"
   ],
   "note": "float arithmetic with every rounding; log10 and the power of ten are contracts Log10Within and Pow10Within with any error (satisfied by the rounded exact functions)"
  },
  {
   "property": "C169",
   "status": "proved",
   "theorems": [
    "Verif.C169_attack",
    "Verif.C169_decay",
    "Verif.C169_release"
   ],
   "note": "float arithmetic; contracts PowfModerate and PowfMono, times of at least one sample"
  },
  {
   "property": "C170",
   "status": "proved",
   "theorems": [
    "Verif.C170_cutoff",
    "Verif.C170_resonant",
    "Verif.C170_q",
    "Verif.C170_fast_tan",
    "Verif.C170_floats"
   ],
   "note": "responses in exact arithmetic; fast_tan and the design parameters in floats, powi under the contracts PowiNear and PowiMono"
  },
  {
   "property": "C171",
   "status": "partial",
   "theorems": [
    "Verif.C171_refuted",
    "Verif.C171_partial"
   ],
   "note": "refuted: a gain of -1 is flat but a gain of 0 takes the centre away altogether; proved among the boosts (gain >= 0) and among the cuts (gain < 0)"
  },
  {
   "property": "C172",
   "status": "proved",
   "theorems": [
    "Verif.C172_order",
    "Verif.C172_feedback"
   ],
   "note": "float arithmetic with every rounding; room as in C122"
  },
  {
   "property": "C173",
   "status": "proved",
   "theorems": [
    "Verif.C173_sawtooth",
    "Verif.C173_triangle",
    "Verif.C173_rectangle",
    "Verif.C173_sine",
    "Verif.C173_distortion"
   ],
   "note": "float arithmetic; micromath's floor and rem_euclid under FloorContract and RemContract"
  },
  {
   "property": "C174",
   "status": "proved",
   "theorems": [
    "Verif.C174_overshoot",
    "Verif.C174_no_overshoot",
    "Verif.C174_highpass"
   ],
   "note": "exact real arithmetic with the code's fast_tan; K is the warped cutoff of C107"
  },
  {
   "property": "C175",
   "status": "proved",
   "theorems": [
    "Verif.C175_echo",
    "Verif.C175_reverberation_time"
   ],
   "note": "float arithmetic with every rounding"
  },
  {
   "property": "C176",
   "status": "partial",
   "theorems": [
    "Verif.C176_refuted",
    "Verif.C176_partial",
    "Verif.C176_actual"
   ],
   "note": "refuted: trigger_on during the attack restarts it from zero; proved for all histories in which the gate is opened only when idle and closed at any time"
  },
  {
   "property": "C177",
   "status": "proved",
   "theorems": [
    "Verif.C177_fades",
    "Verif.C177_allpass",
    "Verif.C177_allpass_total",
    "Verif.C177_split",
    "Verif.C177_split_total",
    "Verif.C177_notch",
    "Verif.C177_bell_boost",
    "Verif.C177_bell_cut",
    "Verif.C177_bell_below_one",
    "Verif.C177_bell_cut_below_one",
    "Verif.C177_low_shelf_boost",
    "Verif.C177_low_shelf_cut",
    "Verif.C177_resonance"
   ],
   "note": "exact real arithmetic with the code's fast_tan; energy is the sum of squares; the low shelf at q = 1/sqrt 2"
  },
  {
   "property": "C178",
   "status": "partial",
   "theorems": [
    "Verif.C178_refuted",
    "Verif.C178_partial",
    "Verif.C178_free"
   ],
   "note": "refuted: a low-pass of q = 2 moved between 1200 and 14400 Hz at every sample overflows; proved for settings that are held long enough for the poles' margin, and for any changes at all when |a1| + |a2| < 1"
  },
  {
   "property": "C179",
   "status": "proved",
   "theorems": [
    "Verif.C179_exact",
    "Verif.C179_forgets",
    "Verif.C179_designs",
    "Verif.C179_float",
    "Verif.C179_float_designs"
   ],
   "note": "one quadratic form that every setting in the octave makes smaller; floats with powi to 2^-19 and a rough sqrt"
  },
  {
   "property": "C180",
   "status": "proved",
   "theorems": [
    "Verif.C180_comb",
    "Verif.C180_all_pass"
   ],
   "note": "exact real arithmetic; energy is the sum of squares"
  },
  {
   "property": "C181",
   "status": "proved",
   "theorems": [
    "Verif.C181_signal",
    "Verif.C181_doppler"
   ],
   "note": "IEEE arithmetic; floor by its contract; signals bounded by 2"
  },
  {
   "property": "C182",
   "status": "proved",
   "theorems": [
    "Verif.C182_phase",
    "Verif.C182_sinusoid",
    "Verif.C182_float"
   ],
   "note": "exact real arithmetic for the first two; IEEE coefficients for C182_float, external powi by PowiNear"
  },
  {
   "property": "C183",
   "status": "partial",
   "theorems": [
    "Verif.C183_refuted",
    "Verif.C183_actual",
    "Verif.C183_partial"
   ],
   "note": "refuted: the window of 5 holds four samples and a zero, so the read is one sample late and carries a ripple of up to a twenty-fourth of the signal (a steady 1 reads as 1.0417); C183_actual gives the read with that ripple, accurate to fourth order; C183_partial bounds the error against the signal"
  },
  {
   "property": "C184",
   "status": "proved",
   "theorems": [
    "Verif.C184_rings",
    "Verif.C184_time",
    "Verif.C184_pitch",
    "Verif.C184_any",
    "Verif.C184_float"
   ],
   "note": "exact real arithmetic for the designs, external powi by PowiExact; C184_any holds of any coefficients with complex poles, C184_float of IEEE arithmetic"
  },
  {
   "property": "C185",
   "status": "proved",
   "theorems": [
    "Verif.C185_range",
    "Verif.C185_strength",
    "Verif.C185_bound",
    "Verif.C185_dampening",
    "Verif.C185_partials",
    "Verif.C185_partials_odd"
   ],
   "note": "exact real arithmetic; C185_bound uses that the settled strength is one number (strength_unique)"
  },
  {
   "property": "C186",
   "status": "proved",
   "theorems": [
    "Verif.C186_comb",
    "Verif.C186_partials",
    "Verif.C186_all_pass"
   ],
   "note": "IEEE binary32; the stated distance is reached up to any positive slack"
  },
  {
   "property": "C187",
   "status": "proved",
   "theorems": [
    "Verif.C187_biquad",
    "Verif.C187_comb",
    "Verif.C187_all_pass",
    "Verif.C187_biquad_float",
    "Verif.C187_comb_float",
    "Verif.C187_all_pass_float",
    "Verif.C187_voice"
   ],
   "note": "exact real arithmetic for the first three theorems, IEEE binary32 for the others; RemContract for the voice"
  },
  {
   "property": "C188",
   "status": "proved",
   "theorems": [
    "Verif.C188_cosh",
    "Verif.C188_sinh",
    "Verif.C188_identity"
   ],
   "note": "IEEE binary32 against the real functions; exp by the contract ExpWithin with any error up to 1 (1/4 for the identity)"
  },
  {
   "property": "C189",
   "status": "proved",
   "theorems": [
    "Verif.C189_clip",
    "Verif.C189_crossfade",
    "Verif.C189_pan",
    "Verif.C189_power"
   ],
   "note": "IEEE binary32, except the equal-power gains, which are in real arithmetic with the real square root"
  },
  {
   "property": "C190",
   "status": "proved",
   "theorems": [
    "Verif.C190_seconds",
    "Verif.C190_millis",
    "Verif.C190_monotone"
   ],
   "note": "IEEE binary32"
  },
  {
   "property": "C191",
   "status": "proved",
   "theorems": [
    "Verif.C191_step",
    "Verif.C191_first",
    "Verif.C191_jump"
   ],
   "note": "IEEE binary32; powf by the contract PowfNear (and PowfModerate for C191_step)"
  },
  {
   "property": "C192",
   "status": "partial",
   "theorems": [
    "Verif.C192_refuted",
    "Verif.C192_never",
    "Verif.C192_limit",
    "Verif.C192_even",
    "Verif.C192_odd",
    "Verif.C192_odd_near",
    "Verif.C192_sharp"
   ],
   "note": "refuted: the result tends to five thirds of the integral, so never to the integral unless that is zero; proved for every twice differentiable integrand with error at most 5|b-a|^3 max|f''|/(9N^2) on even N (second order is sharp) and first order on odd N, where the last points are left out; real arithmetic"
  },
  {
   "property": "C193",
   "status": "proved",
   "theorems": [
    "Verif.C193_bounded",
    "Verif.C193_silent"
   ],
   "note": "IEEE binary32; floor by its contract; the flanger loop is the user's, its two calls are the crate's"
  },
  {
   "property": "C194",
   "status": "partial",
   "theorems": [
    "Verif.C194_refuted",
    "Verif.C194_folds",
    "Verif.C194_sine",
    "Verif.C194_triangle",
    "Verif.C194_stuck"
   ],
   "note": "refuted for f + sr: from sr on the step saturates and every frequency gives the same slow backward wave (C194_stuck); folding about sr/2 holds for every pair of frequencies that add up to sr, with a phase drift of at most 1026 * 2^-32 turn per call from rounding"
  },
  {
   "property": "C195",
   "status": "partial",
   "theorems": [
    "Verif.C195_refuted",
    "Verif.C195_doubles",
    "Verif.C195_never"
   ],
   "note": "refuted: at 0.9 Hz and 44.1 kHz the float filter's output doubles every 4308 samples after a single click, for every powi of the contract (C195_doubles). Below sr/40000 no rounded low-pass passes constants: less than half comes out, or the output grows for ever (C195_never, coefficients rounded, filter run in exact arithmetic). From sr/10000 up the poles are inside the unit circle (C116_down) and from sr/2400 up the filter run in floats stays bounded (C118, C156_bass); between sr/40000 and sr/10000 nothing is claimed"
  },
  {
   "property": "C196",
   "status": "partial",
   "theorems": [
    "Verif.C196_refuted",
    "Verif.C196_ceiling",
    "Verif.C196_near",
    "Verif.C196_below",
    "Verif.C196_acts",
    "Verif.C196_only"
   ],
   "note": "refuted: fast_tan stays finite, so no cutoff up to sr/2 acts above 0.47 sr (C196_ceiling, C196_only: the notch blocks no other frequency). True: up to 0.4 sr within 1.3 percent, never above what was asked for, and rising with it. Exact arithmetic over the reals, powi exact"
  },
  {
   "property": "C197",
   "status": "proved",
   "theorems": [
    "Verif.C197_synth",
    "Verif.C197_silence"
   ],
   "note": "F32 arithmetic throughout; micromath functions under their contracts; the chain itself is the user's"
  },
  {
   "property": "C198",
   "status": "proved",
   "theorems": [
    "Verif.C198_filters",
    "Verif.C198_equalisers",
    "Verif.C198_time",
    "Verif.C198_comb",
    "Verif.C198_all_pass"
   ],
   "note": "exact arithmetic; sqrt of the shelves is a parameter"
  },
  {
   "property": "C199",
   "status": "proved",
   "theorems": [
    "Verif.C199_any_order",
    "Verif.C199_rack"
   ],
   "note": "exact arithmetic, over any field; in floats the order changes rounding (example beside the theorem)"
  },
  {
   "property": "C200",
   "status": "proved",
   "theorems": [
    "Verif.C200_convolution",
    "Verif.C200_determines",
    "Verif.C200_peak"
   ],
   "note": "exact arithmetic, over any field (the peak over the reals)"
  },
  {
   "property": "C201",
   "status": "partial",
   "theorems": [
    "Verif.C201_refuted",
    "Verif.C201_partial",
    "Verif.C201_actual",
    "Verif.C201_remedy",
    "Verif.C201_handle",
    "Verif.C201_fill"
   ],
   "note": "refuted for the comb: its filter state is not in the buffer, and it comes back one buffer length after the clearing (C201_actual gives the value in any arithmetic). The slice handed out is the whole buffer and only that (C201_handle, C201_fill); delay lines, all-passes and combs with a zero filter state are silenced for good, in f32 (C201_partial); so is any comb with a finite filter state if it is ticked once at dampening zero after the clearing (C201_remedy)"
  },
  {
   "property": "C202",
   "status": "proved",
   "theorems": [
    "Verif.C202_settings",
    "Verif.C202_bell",
    "Verif.C202_flat",
    "Verif.C202_comb",
    "Verif.C202_comb_flat"
   ],
   "note": "exact arithmetic over the reals (the comb over any field), powi exact; the low shelf is not part of the claim"
  },
  {
   "property": "C203",
   "status": "proved",
   "theorems": [
    "Verif.C203_lossless",
    "Verif.C203_needed",
    "Verif.C203_designs",
    "Verif.C203_undo",
    "Verif.C203_float_loses"
   ],
   "note": "exact arithmetic, over any field (the designs over the reals, powi exact, the square root any nonnegative function); C203_float_loses is in f32"
  },
  {
   "property": "C204",
   "status": "proved",
   "theorems": [
    "Verif.C204_biquad_causal",
    "Verif.C204_effect_causal",
    "Verif.C204_chain",
    "Verif.C204_exactly"
   ],
   "note": "the first two in any arithmetic, f32 included, from any state; the others in exact arithmetic, over any field, from silence"
  },
  {
   "property": "C205",
   "status": "proved",
   "theorems": [
    "Verif.C205_freeze",
    "Verif.C205_infinite_state",
    "Verif.C205_kept",
    "Verif.C205_unbounded",
    "Verif.C205_never_dies"
   ],
   "note": "C205_freeze and C205_infinite_state (why the filter state must be finite) in f32; C205_kept over any field; the last two over the reals, from silence"
  },
  {
   "property": "C206",
   "status": "proved",
   "theorems": [
    "Verif.C206_exact",
    "Verif.C206_float",
    "Verif.C206_delay"
   ],
   "note": "C206_exact over any field, the others in f32"
  },
  {
   "property": "C207",
   "status": "proved",
   "theorems": [
    "Verif.C207_mono_pan",
    "Verif.C207_stereo_pan",
    "Verif.C207_hump",
    "Verif.C207_moves",
    "Verif.C207_float"
   ],
   "note": "the first four over the reals with the exact square root; C207_float in f32"
  }
 ]
}