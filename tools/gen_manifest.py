#!/usr/bin/env python3
"""Writes MANIFEST.json; checks that every theorem named exists in lean/Verif."""
import json, re, glob, sys

P, R = "proved", "partial"
C = []
def c(prop, status, theorems, note):
    C.append({"property": prop, "status": status,
              "theorems": ["Verif." + t for t in theorems.split()], "note": note})

c("C01", P, "C01_get C01_assign_in C01_assign_out C113_from_slice C113_from_slice_mut", "Any slice viewing live memory, any index.")
c("C02", P, "C02_read_your_writes", "Any history of checked writes through any number of overlapping live handles.")
c("C03", P, "C03_get_wrapped C03_wrapAt_spec C03_empty_panics", "Every isize index, every non-empty slice, every pointer width.")
c("C04", R, "C04_four_wrapped_partial C04_four_wrapped_refuted", "Refuted at indices above isize::MAX-3 (panic in debug, out-of-bounds read in release); holds everywhere else.")
c("C05", R, "C05_sub_slice_inside_partial C05_sub_slice_inside_refuted C05_sub_slice_inside_actual", "Refuted in release builds by an offset+length that wraps: every such window is granted and reaches out of the block (C05_sub_slice_inside_actual); holds when offset+length does not overflow.")
c("C06", R, "C06_windows_partial C06_windows_refuted", "Refuted: every window reaching exactly to the end of the slice is rejected. All other cases hold.")
c("C07", P, "C07_lerp_safe", "All 2^32 positions, every length and build configuration.")
c("C08", R, "C08_whole_index_partial C08_last_index_partial C08_whole_index_refuted", "Refuted for every buffer of 33..2^24 samples: the last whole index is rejected. Holds for all other indices, and for the last one up to 32 samples.")
c("C09", P, "C09_negative C09_beyond C09_inside", "Lengths 1..2^24, every non-NaN position; the accepted case also gives the exact blend.")
c("C10", P, "C10_lerp_wrapped_inside C10_lerp_wrapped C10_lerp_wrapped_whole", "Assumes micromath's floor meets FloorContract (shown satisfiable).")
c("C11", R, "C11_through_samples_partial C11_through_samples_actual C11_near_actual C11_through_samples_refuted", "Refuted for every window of 4 or more; holds for window 2. At position i the code returns the sample at i-w/2+1: exactly for whole samples (C11_through_samples_actual), up to w/2^22 for all others (C11_near_actual).")
c("C12", P, "C12_lagrange_wrapped_inside C12_lagrange_wrapped", "Assumes FloorContract; the first theorem needs nothing.")
c("C13", R, "C13_four_points_partial C13_four_points_actual C13_position_actual C13_cubic_actual C13_four_points_refuted", "Refuted at position 1 (the code evaluates at x, not at its fractional part); holds on [0,1). The actual theorems say what every position returns and how close that is to the cubic at x.")
c("C14", P, "C14_null_slice C14_null_slice_interpolated", "Every index, offset, length, value, memory.")

c("C15", P, "C15_delay_exactly", "Every buffer length, contents and input sequence.")
c("C16", R, "C16_stays_inside_partial C16_stays_inside_refuted C16_not_inside C16_actual", "Refuted: change_buffer to a shorter buffer keeps the cursor, so the next read or write is out of bounds. C16_actual: from then on the line plays and overwrites what follows the buffer, until it leaves the allocation. Holds for histories whose buffers never shrink below the cursor.")
c("C17", P, "C17_read_wrapped_at C17_recent", "Every history of writes and every isize offset that does not overflow cursor+offset.")
c("C18", P, "C18_lerp_read_whole", "Assumes FloorContract.")
c("C19", R, "C19_lagrange_read_partial C19_near_actual C19_lagrange_read_refuted", "Refuted: the read at a whole offset returns the sample one place older, exactly for whole samples (C19_lagrange_read_partial) and up to 5/2^22 for all others (C19_near_actual).")
c("C20", P, "C20_comb", "Any arithmetic, so bit for bit in f32.")
c("C21", P, "C21_comb_bounded", "Binary32 with rounding, all time.")
c("C22", P, "C22_comb_stable", "Any ordered field.")
c("C23", P, "C23_comb_echo C23_comb_impulse", "Any field.")
c("C24", P, "C24_all_pass C24_difference_equation", "Any arithmetic; difference equation in any field of characteristic 0.")
c("C25", P, "C25_all_pass_bounded", "Binary32 with rounding, all time.")
c("C26", R, "C26_all_pass_energy_refuted C26_dc_gain_partial C137_all_pass C137_all_pass_range", "Refuted for every buffer length: the impulse response has energy 7/3. DC gain is 1; at other frequencies the gain is that of (3/2-z^L)/(z^L-1/2), between 1 and 5/3, both reached (C137).")

c("C27", P, "C27_difference_equation", "Any field.")
c("C28", P, "C28_linear C28_time_invariant", "Any field.")
c("C29", P, "C29_nan_poison", "Any state, any later inputs and coefficients.")
c("C30", P, "C30_zero_coeffs C30_zero_input", "Binary32.")
c("C31", P, "C31_lowpass C31_lowpass_measured", "Real arithmetic; the second theorem states it about runs of process.")
c("C32", P, "C32_highpass C32_highpass_measured", "Real arithmetic.")
c("C33", P, "C33_allpass C33_allpass_everywhere", "Real arithmetic, every point of the unit circle.")
c("C34", P, "C34_notch", "Real arithmetic.")
c("C35", P, "C35_stable C35_decays", "Real arithmetic; cut designs included.")
c("C36", P, "C36_bell C36_low_shelf", "Real arithmetic, any square-root routine.")
c("C37", P, "C37_low_shelf C37_bell", "Real arithmetic.")

c("C38", P, "C38_float_word_float C38_word_float_word", "Every bit pattern, both build modes.")
c("C39", P, "C39_word_round_trip C39_float_round_trip C39_components_round_trip", "Every bit pattern.")
c("C40", R, "C40_components_value C40_oversized_refuted C40_oversized_actual C40_oversized_float", "The value formula is proved. The oversized-mantissa half is refuted: a mantissa of 24 or more bits is added into the exponent and sign fields.")
c("C41", P, "C41_bit_reduce", "Binary32, exact.")
c("C42", P, "C42_error C42_idempotent C42_odd C42_monotone", "Binary32.")
c("C43", R, "C43_errors_partial C43_nan_actual C43_nan_refuted", "Errors are as documented for every input; the NaN half is refuted: NaN becomes a zero.")
c("C44", P, "C44_bits C44_over C44_shrinks C44_relative_error", "Every bit pattern.")
c("C45", R, "C45_class_refuted C45_class_partial", "Refuted for NaN whose surviving mantissa bits are all cleared; everything else is proved.")

c("C46", P, "C46_errors", "Binary32, every pair of samples and every factor.")
c("C47", R, "C47_nan_refuted C47_number_partial C47_nan_actual", "Refuted: a NaN factor passes the range check and the result is NaN. For a factor that is a number the result is a number.")
c("C48", P, "C48_endpoints", "Binary32.")
c("C49", P, "C49_lerp C49_between", "Binary32; within one rounding of the exact blend, and between the samples up to that rounding.")
c("C50", P, "C50_polynomial C50_nodes", "Any field, every window length.")
c("C51", P, "C51_panics C51_panics_small C51_value", "Every window; without a panic the result is the sum of C50.")
c("C52", P, "C52_four", "Binary32, bit for bit, every x <= 3 that is not NaN.")
c("C53", P, "C53_exact C53_seconds C53_millis", "Exact in any field; relative error in binary32.")
c("C54", R, "C54_simpson_refuted C54_simpson_actual C54_affine_actual C54_small_panics", "Refuted: the odd points are counted once too often, so every affine integrand comes out multiplied by 5/3. What the code does compute is proved for every N and every integrand.")
c("C55", P, "C55_accurate C55_odd_increasing", "Real arithmetic; powi taken as exact.")
c("C56", R, "C56_exact_partial C56_shape_actual C56_monotone_refuted C56_float_partial C56_overflow_actual FMath.C56_far_actual FMath.C56_bounded_actual C56_bounded_refuted", "Odd up to 2^62 in float arithmetic. Monotonicity is refuted: the approximation falls beyond sqrt 2. For finite x the bound holds exactly below 2^64 (the result is 0 from 2^30 on); at 2^64 and beyond the result is NaN.")
c("C57", R, "C57_exact C57_real C57_cosh_even C57_sinh_odd_partial C57_sinh_zero_actual C57_sinh_odd_refuted", "Everything holds except the sign of zero: sinh(-0) is +0.")

c("C58", P, "C58_sin C58_unchecked_panics", "Every phase, every degree, both build modes.")
c("C59", P, "C59_accurate", "Every phase, against the real sine.")
c("C60", R, "C60_range_partial C60_unit_refuted C60_cos_partial C60_cos_refuted", "Refuted: fixed_point_sin(-PI/2) and fixed_point_cos(PI) return -32768/32767. That is the only excess: every argument gives a number of [-32768/32767, 1].")
c("C61", P, "C61_lookup_sin C61_lookup", "Every f32; assumes RemContract of rem_euclid (shown satisfiable).")
c("C62", R, "C62_in_table_refuted C62_in_table_partial", "Refuted at exactly two arguments, 0.25 and 0.75, which read one entry past the end; every other f32 stays in the table.")
c("C63", P, "C63_outside C63_range C63_symmetry", "Every f32 other than the two bad arguments of C62.")
c("C64", P, "C64_table C64_zero_step", "Every table size.")

c("C65", P, "C65_phase C65_same_advance", "closed form of the phase after any number of reads by either method")
c("C66", P, "C66_counter C66_output C66_setters", "counter, settings and outputs after an arbitrary history of calls and setters")
c("C67", R, "C67_refuted C67_partial C67_actual_reached", "refuted: 1.0 is returned for the 128 largest integer phases; exact characterisation, range [0,1] and error bound proved, and the bad value shown reachable without any phase shift")
c("C68", P, "C68_range", "every accumulator state, so every history")
c("C69", R, "C69_refuted C69_partial C69_actual", "refuted: 3.0 is returned where the phase rounds to 1.0; exactly -1/1 with the right halves everywhere else; assumes FloorContract of the external floor")
c("C70", P, "C70_saw C70_tri C70_saw_mono C70_tri_mono", "float outputs against the ideal waves with error bounds, and monotonicity in the integer phase")
c("C71", R, "C71_refuted C71_partial C71_actual C71_actual_reached", "refuted: the last 1/len of every cycle reads past the table; safe and correct below that; every table of 2..2^23 samples is overrun within one cycle at any low enough frequency")
c("C72", R, "C72_refuted C72_partial C72_actual", "refuted: NaN and frequencies above Nyquist are accepted (and the receiver is consumed); Zero and Negative errors proved exactly")
c("C73", P, "C73_step C73_saturation", "sample rates from 2^-90 to 2^120 count as the normal range")
c("C74", P, "C74_pan", "NaN amounts pass the check, as the iff says")
c("C75", P, "C75_gains C75_monotone C75_exact", "")
c("C76", R, "C76_swap C76_extremes_refuted C76_extremes_partial C76_checked C76_checked_extremes", "swap law proved bit for bit for every amount and sample; the extremes hold for finite samples and fail for infinite ones (inf*0); stereo extremes assume sqrt 0 = 0 and sqrt 1 = 1")
c("C77", P, "C77_power C77_energy", "real arithmetic with the real square root")
c("C78", P, "C78_clip C78_monotone", "core's clamp is modelled from its documentation")
c("C79", R, "C79_refuted C79_partial C79_actual", "refuted: the three soft clippers panic (todo!) exactly on [-1,1] and NaN")
c("C80", R, "C80_refuted C80_partial", "refuted only in 'never Ok(NaN)': a NaN input gives Ok(NaN); everything else proved for every log10 meeting Log10Contract")
c("C81", P, "C81_inverse C81_increasing", "real arithmetic with the real logarithm and power")

c("C82", R, "C82_refuted C82_partial C82_actual C82_saturating_actual C82_nan_actual", "refuted: with a time far below one sample the power overflows and sustain 1 gives inf*0 = NaN; for times of at least one sample and slopes up to 20 every history is panic free and in [0,1], assuming PowfModerate of the external powf; for times and slopes of any size a sample is in [0,1] or NaN, exactly when it is NaN is an equivalence, and no NaN occurs if the power does not overflow")
c("C83", P, "C83_state_graph", "every state and call, any powf whatsoever")
c("C84", R, "C84_refuted C84_partial C84_cycle_partial C84_actual", "refuted: the NaN state of C82 never leaves Decay; for times of at least one sample each stage ends within N ticks, N >= 8/(7*rate); for times of any length Attack always ends, and Decay and Release end or return NaN")
c("C85", P, "C85_idle_silent C85_reset_silent C85_sustain_holds", "arbitrary histories without trigger_on (idle) or without triggers and reset (sustain)")
c("C86", R, "C86_refuted C86_partial C86_actual", "refuted: set_sustain while sustaining leaves a stale level from which the release starts; proved for all histories without that call")
c("C87", R, "C87_refuted C87_partial C87_actual", "refuted only by the NaN of C82; proved for times of any length unless sustain is 1 and the power infinite")
c("C88", R, "C88_refuted C88_partial C88_actual", "refuted: the phase, not the level, is carried over; after a completed decay a retrigger jumps to 1 at once")
c("C89", R, "C89_refuted C89_partial C89_actual C106_new C106_set", "refuted: every time above 2 s is treated as 2 s; relative error 2^-22 up to 2 s")
c("C90", R, "C90_refuted C90_partial", "refuted: set_sr rescales nothing; every later sample is unchanged by it")
c("C91", P, "C91_new_panics C91_calls_panic", "every f32 argument, NaN and infinities included")
c("C92", P, "C92_sin", "real sine from Mathlib; rem_euclid is a parameter with RemContract")
c("C93", P, "C93_cos", "real cosine from Mathlib; rem_euclid is a parameter with RemContract")
c("C94", R, "C94_refuted C94_partial C94_actual", "refuted: the table stops at phase 28658 of 32768 and is read as if it covered the half turn, so lookup_sin(0) is about -0.098; C94_partial bounds the error by 1/5 + |x|/10^6, C94_actual gives the function really computed")
c("C95", P, "C95_sine_oscillator", "every state; rem_euclid is a parameter with RemContract")
c("C96", P, "C96_state C96_output", "rem_euclid and floor are parameters with contracts")
c("C97", R, "C97_refuted C97_partial C97_actual", "refuted: -1/4 turn is no shift at all; C97_partial is the claim for 0 <= s < 1, C97_actual tells what the other arguments do")
c("C98", P, "C98_state C98_fault", "the possible out-of-range read is C71's")
c("C99", P, "C99_modulated C99_stable", "C99_modulated for any arithmetic (F32 included), the bound in exact arithmetic")
c("C100", P, "C100_delay C100_comb C100_all_pass", "any arithmetic; a buffer not longer than the cursor is C16's subject")
c("C101", R, "C101_refuted C101_partial C101_actual", "refuted: the NaN stays in the low-pass state and the output is NaN for ever; C101_partial: until the NaN leaves the buffer nothing changes")
c("C102", P, "C102_stays C102_confined", "F32 arithmetic, every run")
c("C103", P, "C103_attack C103_attack_end C103_decay C103_release C103_cycle", "F32 arithmetic, any powf; C103_cycle is a whole cycle of a new envelope")
c("C104", P, "C104_attack C104_decay C104_release", "F32 arithmetic, powf per PowfModerate and PowfBelow")
c("C105", P, "C105_attack C105_decay C105_release", "F32 arithmetic, powf per PowfModerate and PowfMono")
c("C106", P, "C106_new C106_set C106_attack_only C106_decay_only C106_release_only C106_sustain_only", "F32 arithmetic, any powf")
c("C107", P, "C107_cutoff", "exact arithmetic over the reals, powi exact")
c("C108", P, "C108_sinusoid C108_lowpass", "exact arithmetic over the reals")
c("C109", P, "C109_bounded", "exact arithmetic over the reals")
c("C110", R, "C110_refuted C110_partial C110_actual", "refuted: below 2^-16 the result is 0 instead of 1; the error is at most 301e-6/|x| + 1e-6 everywhere")
c("C111", R, "C111_refuted C111_actual", "refuted: the Simpson weights make si five thirds of the sine integral, shown to 1/20 for every |x| <= 4")
c("C112", P, "C112_exact C112_float C112_ends C112_swap", "any field and F32 arithmetic")
c("C113", P, "C113_from_slice C113_from_slice_mut C113_as_slice C113_change_slice", "")
c("C114", P, "C114_bounded C114_fine", "F32 arithmetic")
c("C115", P, "C115_tracks", "F32 arithmetic against the reals")
c("C116", P, "C116_stable C116_down C116_low C116_bell_cut C116_low_shelf_cut", "F32 arithmetic; PowiNear and SqrtRough are the contracts of the external powi and sqrt")
c("C117", P, "C117_fast_tan", "F32 arithmetic; PowiNear is the contract of the external powi (met by repeated multiplication)")
c("C118", P, "C118_never_blows_up C118_bass", "F32 arithmetic from design to output")
c("C119", P, "C119_independent", "any schedule, any disjoint slices")
c("C120", R, "C120_refuted C120_actual C120_partial", "refuted: copies share the buffer but not the cursor, so the original reads what the copy wrote; independent once the copy has a buffer of its own (change_buffer)")
c("C121", R, "C121_refuted C121_actual C121_partial", "refuted: from_slice keeps no lifetime, reading after the array is gone is undefined behaviour; dropping other arrays does no harm")
c("C122", P, "C122_bounded", "F32 arithmetic, settings changed at every tick")
c("C123", R, "C123_refuted C123_actual C123_partial", "refuted: an impulse of 1.0 leaves a comb with default settings ringing at 2^-148 for ever; it does come down to 2^-148 within 1096 rounds of the buffer")
c("C124", P, "C124_all_pass_silent", "F32 arithmetic, denormals included")
c("C125", P, "C125_comb C125_all_pass", "F32 arithmetic against exact rationals")
c("C126", R, "C126_constant_refuted C126_range_refuted C126_monotone_refuted C126_refuted C126_exact_partial C126_partial C126_near_partial", "refuted: lerp(3,3,0.1) is below 3, lerp(0.7,0.7,0.15) above 0.7, and from 1 to 2 it goes back by an ulp; true when the ends have opposite signs, and up to 6/2^24 always")
c("C127", P, "C127_comb_linear C127_all_pass_linear C127_comb_time_invariant C127_all_pass_time_invariant", "exact arithmetic, any field")
c("C128", R, "C128_refuted C128_actual C128_pitch_actual C128_partial", "refuted: 440 Hz at 48 kHz is off by more than 1/100 turn after 2^26 samples; the drift is linear, at most 2^-32 + 2^-22 f/sr turns per sample")
c("C129", P, "C129_bit_reduce C129_bit_reduce_exp", "F32, bit for bit")
c("C130", P, "C130_gains C130_power", "F32 arithmetic; the square root by contract, met by micromath's with eps = 0.126")
c("C131", P, "C131_circle", "F32 arithmetic against the real functions; rem_euclid by contract")
c("C132", R, "C132_refuted C132_actual C132_partial", "refuted: the offset is added to the cursor in f32, which rounds its fraction; off by at most (L+2)/2^24 samples, exact when the fraction has k bits with L*2^k <= 2^24")
c("C133", P, "C133_accuracy C133_overshoot", "F32 arithmetic against the exact cubic")
c("C134", P, "C134_monotone C134_slope C134_peak", "exact arithmetic; frequencies as points of the unit circle, as heard through C108")
c("C135", P, "C135_notch_range C135_notch_width C135_bell_range C135_bell_slopes", "exact arithmetic")
c("C136", R, "C136_refuted C136_actual C136_partial C136_monotone_partial", "refuted: at q = 1 a shelf of gain 2 reaches sqrt 5; true exactly for q = 1/sqrt 2 (`C136_actual`)")
c("C137", P, "C137_comb C137_comb_range C137_comb_constant C137_all_pass C137_all_pass_range", "exact arithmetic, on the model's runs")
c("C138", P, "FMath.C138_exact FMath.C138_exact_abs FMath.C138_float", "F32 arithmetic against Real.tanh")
c("C139", P, "C139_voice C139_silence", "F32 arithmetic, block memory, all touches; micromath functions under their contracts")
c("C140", P, "C140_zeros", "rounded coefficients, gains and runs of the filter in exact arithmetic")
c("C141", P, "C141_dc C141_off", "rounded coefficients, gains and runs of the filter in exact arithmetic; C141_off shows the size of the bounds is right")
c("C142", P, "C142_network", "any arithmetic; wires are arbitrary functions of the input and of the answers earlier in the tick")
c("C143", P, "C143_reverb", "F32 arithmetic, block memory; the reverb is a network of C142")
c("C144", P, "FMath.C144_table", "Simpson's rule in integers checked by the kernel, its error against the integral proved")
c("C145", P, "FMath.C145_lookup", "the two excluded phases are the reads past the table of C62")
c("C146", P, "C146_waveform C146_sine", "tables up to 2^24 samples, each sample at most 2 in magnitude; the phases that leave the table are those of C71")
c("C147", P, "C147_notch C147_allpass C147_bell", "exact arithmetic, every input; powi assumed exact")
c("C148", P, "C148_lowpass C148_highpass C148_chain", "exact arithmetic; the warped frequency is the code's own tangent polynomial (C107 relates it to the cutoff)")
c("C149", P, "C149_crossover C149_second_order", "exact arithmetic; the fourth-order sum sample by sample, the second-order one as a gain")
c("C150", P, "C150_phase C150_functional C150_wavetable", "an equivalence: the period is the least one")
c("C151", P, "C151_sawtooth C151_triangle C151_sine C151_rectangle", "means of the float outputs; the rectangle's 3.0 values of C69 included")
c("C152", P, "C152_slice C152_interpolated C152_delay C152_functions C152_bits C152_oscillators C152_network C152_voice", "one direction only: an example shows a release build returning where a debug build panics")
c("C153", R, "C153_refuted C153_slice_partial C153_interpolated_partial C153_delay_partial C153_network_partial C153_voice_partial C153_tables_partial", "beyond 2^31 the index of the wrapped readers saturates at isize::MAX of the target; proved for indices up to 2^30 and for everything that does not take an index from the caller")
c("C154", P, "C154_readers C154_biquad C154_network C154_level C154_wavetable", "")
c("C155", P, "C155_bounded C155_tracks C155_margin", "extends C114 and C115 to real and double poles")
c("C156", P, "C156_never_blows_up C156_chain C156_bass C156_bass_chain", "F32 arithmetic from design to output; PowiNear and SqrtWithin are the contracts of the external powi and sqrt")
c("C157", P, "C157_panics C157_zero C157_bit_reduce C157_bit_reduce_exp", "extends C41, C43 and C44 beyond the guards of the checked forms")
c("C158", P, "C158_counter C158_output", "")
c("C159", R, "C159_refuted C159_partial C159_actual", "refuted: 110 Hz runs away from 55 Hz at 48 kHz because each step is truncated by itself; exact when the lower step is 2^23 or more, otherwise a constant lead below 2^k per sample")
c("C160", P, "C160_design_exact C160_design_float C160_phase C160_oscillator C160_wavetable C160_envelope", "floats: factors 2^k; envelope times up to 2 s (C89)")
c("C161", P, "C161_compiles C161_fails C64_table", "extends C64 to sizes above u16::MAX")
c("C162", P, "C162_response C162_corner", "")
c("C163", P, "C163_biquad C163_network C163_needed", "the side condition is computed by running the same code on floats that carry a mark")
c("C164", R, "C164_refuted C164_partial C164_step_partial C164_odd", "refuted: from phase 32760 to 32761 it falls from 32765 to 32764; no later value is more than 2 units lower, each step is between -1 and +2 units, and the values at z and -z sum to 0, -1, -2 or -3 units; all bounds are reached")
c("C165", P, "C165_sawtooth C165_triangle C165_sine C165_rectangle", "float arithmetic; spec is the mean square over the exact period; the triangle needs a step above 0, the sine one that is neither 0 nor exactly half the sample rate")
c("C166", P, "C166_frequency C166_rate C166_distinct", "F32 arithmetic, with the saturating conversion; spec MovesBy speaks of the counter only")
c("C167", R, "C167_refuted C167_partial C167_stuck C167_recovers C167_forgets C167_forgets_float", "falling silent is refuted: the low-pass at 3 kHz (q 1/2, 48 kHz) rings on at 2^-148 for ever after a single sample of 1; in the end nothing but zeros and denormals comes out; the forgetting is proved, exactly and in floats up to what rounding makes of the input")
c("C168", P, "C168_decibels C168_ratio C168_there_and_back C168_back_and_there", "float arithmetic with every rounding; log10 and the power of ten are contracts Log10Within and Pow10Within with any error (satisfied by the rounded exact functions)")
c("C169", P, "C169_attack C169_decay C169_release", "float arithmetic; contracts PowfModerate and PowfMono, times of at least one sample")
c("C170", P, "C170_cutoff C170_resonant C170_q C170_fast_tan C170_floats", "responses in exact arithmetic; fast_tan and the design parameters in floats, powi under the contracts PowiNear and PowiMono")
c("C171", R, "C171_refuted C171_partial", "refuted: a gain of -1 is flat but a gain of 0 takes the centre away altogether; proved among the boosts (gain >= 0) and among the cuts (gain < 0)")
c("C172", P, "C172_order C172_feedback", "float arithmetic with every rounding; room as in C122")
c("C173", P, "C173_sawtooth C173_triangle C173_rectangle C173_sine C173_distortion", "float arithmetic; micromath's floor and rem_euclid under FloorContract and RemContract")
c("C174", P, "C174_overshoot C174_no_overshoot C174_highpass", "exact real arithmetic with the code's fast_tan; K is the warped cutoff of C107")
c("C175", P, "C175_echo C175_reverberation_time", "float arithmetic with every rounding")
c("C176", R, "C176_refuted C176_partial C176_actual", "refuted: trigger_on during the attack restarts it from zero; proved for all histories in which the gate is opened only when idle and closed at any time")
c("C177", P, "C177_fades C177_allpass C177_allpass_total C177_split C177_split_total C177_notch C177_bell_boost C177_bell_cut C177_bell_below_one C177_bell_cut_below_one C177_low_shelf_boost C177_low_shelf_cut C177_resonance", "exact real arithmetic with the code's fast_tan; energy is the sum of squares; the low shelf at q = 1/sqrt 2")
c("C178", R, "C178_refuted C178_partial C178_free", "refuted: a low-pass of q = 2 moved between 1200 and 14400 Hz at every sample overflows; proved for settings that are held long enough for the poles' margin, and for any changes at all when |a1| + |a2| < 1")
c("C179", P, "C179_exact C179_forgets C179_designs C179_float C179_float_designs", "one quadratic form that every setting in the octave makes smaller; floats with powi to 2^-19 and a rough sqrt")
c("C180", P, "C180_comb C180_all_pass", "exact real arithmetic; energy is the sum of squares")
c("C181", P, "C181_signal C181_doppler", "IEEE arithmetic; floor by its contract; signals bounded by 2")
c("C182", P, "C182_phase C182_sinusoid C182_float", "exact real arithmetic for the first two; IEEE coefficients for C182_float, external powi by PowiNear")
c("C183", R, "C183_refuted C183_actual C183_partial", "refuted: the window of 5 holds four samples and a zero, so the read is one sample late and carries a ripple of up to a twenty-fourth of the signal (a steady 1 reads as 1.0417); C183_actual gives the read with that ripple, accurate to fourth order; C183_partial bounds the error against the signal")
c("C184", P, "C184_rings C184_time C184_pitch C184_any C184_float", "exact real arithmetic for the designs, external powi by PowiExact; C184_any holds of any coefficients with complex poles, C184_float of IEEE arithmetic")
c("C185", P, "C185_range C185_strength C185_bound C185_dampening C185_partials C185_partials_odd", "exact real arithmetic; C185_bound uses that the settled strength is one number (strength_unique)")
c("C186", P, "C186_comb C186_partials C186_all_pass", "IEEE binary32; the stated distance is reached up to any positive slack")
c("C187", P, "C187_biquad C187_comb C187_all_pass C187_biquad_float C187_comb_float C187_all_pass_float C187_voice", "exact real arithmetic for the first three theorems, IEEE binary32 for the others; RemContract for the voice")
c("C188", P, "C188_cosh C188_sinh C188_identity", "IEEE binary32 against the real functions; exp by the contract ExpWithin with any error up to 1 (1/4 for the identity)")
c("C189", P, "C189_clip C189_crossfade C189_pan C189_power", "IEEE binary32, except the equal-power gains, which are in real arithmetic with the real square root")
c("C190", P, "C190_seconds C190_millis C190_monotone", "IEEE binary32")
c("C191", P, "C191_step C191_first C191_jump", "IEEE binary32; powf by the contract PowfNear (and PowfModerate for C191_step)")
c("C192", R, "C192_refuted C192_never C192_limit C192_even C192_odd C192_odd_near C192_sharp", "refuted: the result tends to five thirds of the integral, so never to the integral unless that is zero; proved for every twice differentiable integrand with error at most 5|b-a|^3 max|f''|/(9N^2) on even N (second order is sharp) and first order on odd N, where the last points are left out; real arithmetic")
c("C193", P, "C193_bounded C193_silent", "IEEE binary32; floor by its contract; the flanger loop is the user's, its two calls are the crate's")
c("C194", R, "C194_refuted C194_folds C194_sine C194_triangle C194_stuck", "refuted for f + sr: from sr on the step saturates and every frequency gives the same slow backward wave (C194_stuck); folding about sr/2 holds for every pair of frequencies that add up to sr, with a phase drift of at most 1026 * 2^-32 turn per call from rounding")
c("C195", R, "C195_refuted C195_doubles C195_never", "refuted: at 0.9 Hz and 44.1 kHz the float filter's output doubles every 4308 samples after a single click, for every powi of the contract (C195_doubles). Below sr/40000 no rounded low-pass passes constants: less than half comes out, or the output grows for ever (C195_never, coefficients rounded, filter run in exact arithmetic). From sr/10000 up the poles are inside the unit circle (C116_down) and from sr/2400 up the filter run in floats stays bounded (C118, C156_bass); between sr/40000 and sr/10000 nothing is claimed")
c("C196", R, "C196_refuted C196_ceiling C196_near C196_below C196_acts C196_only", "refuted: fast_tan stays finite, so no cutoff up to sr/2 acts above 0.47 sr (C196_ceiling, C196_only: the notch blocks no other frequency). True: up to 0.4 sr within 1.3 percent, never above what was asked for, and rising with it. Exact arithmetic over the reals, powi exact")
c("C197", P, "C197_synth C197_silence", "F32 arithmetic throughout; micromath functions under their contracts; the chain itself is the user's")
c("C198", P, "C198_filters C198_equalisers C198_time C198_comb C198_all_pass", "exact arithmetic; sqrt of the shelves is a parameter")
c("C199", P, "C199_any_order C199_rack", "exact arithmetic, over any field; in floats the order changes rounding (example beside the theorem)")
c("C200", P, "C200_convolution C200_determines C200_peak", "exact arithmetic, over any field (the peak over the reals)")
c("C201", R, "C201_refuted C201_partial C201_actual C201_remedy C201_handle C201_fill", "refuted for the comb: its filter state is not in the buffer, and it comes back one buffer length after the clearing (C201_actual gives the value in any arithmetic). The slice handed out is the whole buffer and only that (C201_handle, C201_fill); delay lines, all-passes and combs with a zero filter state are silenced for good, in f32 (C201_partial); so is any comb with a finite filter state if it is ticked once at dampening zero after the clearing (C201_remedy)")
c("C202", P, "C202_settings C202_bell C202_flat C202_comb C202_comb_flat", "exact arithmetic over the reals (the comb over any field), powi exact; the low shelf is not part of the claim")
c("C203", P, "C203_lossless C203_needed C203_designs C203_undo C203_float_loses", "exact arithmetic, over any field (the designs over the reals, powi exact, the square root any nonnegative function); C203_float_loses is in f32")
c("C204", P, "C204_biquad_causal C204_effect_causal C204_chain C204_exactly", "the first two in any arithmetic, f32 included, from any state; the others in exact arithmetic, over any field, from silence")
c("C205", P, "C205_freeze C205_infinite_state C205_kept C205_unbounded C205_never_dies", "C205_freeze and C205_infinite_state (why the filter state must be finite) in f32; C205_kept over any field; the last two over the reals, from silence")
c("C206", P, "C206_exact C206_float C206_delay", "C206_exact over any field, the others in f32")
c("C207", P, "C207_mono_pan C207_stereo_pan C207_hump C207_moves C207_float", "the first four over the reals with the exact square root; C207_float in f32")
src = "".join(open(f).read() for f in glob.glob("/verif/lean/Verif/**/*.lean", recursive=True))
names = set(re.findall(r"^theorem\s+([\w.']+)", src, re.M))
bad = [t for e in C for t in e["theorems"] if t.split(".", 1)[1] not in names and t.split(".")[-1] not in names]
if bad: sys.exit("unknown theorems: %s" % bad)
used = {t.split(".")[-1] for e in C for t in e["theorems"]}
loose = [n for n in sorted(names) if re.match(r"C\d\d", n.split(".")[-1]) and n.split(".")[-1] not in used]
if loose: print("not in manifest:", loose)
json.dump({"claims": C}, open("/verif/MANIFEST.json", "w"), indent=1, ensure_ascii=False)
print(len(C), "claims")
