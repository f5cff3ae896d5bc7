# Formal model of embedded-audio-tools in Lean 4

The model covers every function of `/repo/src` (table below). Each property of `properties.jsonl` is a set of Lean
theorems about that model, listed in `MANIFEST.json` and in the table "Properties, one by one".

## Layout

* `lean/Verif/F32/…`   IEEE-754 binary32: bits, value, round-to-nearest-even, operations, and the theory about them.
* `lean/Verif/Model/…` one module per Rust source file or directory; every definition cites file and lines.
* `lean/Verif/Spec/…`  small specifications the theorems refer to (what a delay, an envelope, a filter, a blend is), and
  the contracts of external functions.
* `lean/Verif/Lemmas/…` helper lemmas.
* `lean/Verif/Props/…` property theorems `Cnn_…`, one module per area, each with a concrete case meeting its hypotheses.
* `tools/` generators of `properties.jsonl`, `MANIFEST.json`, `Verif.lean`, this file and the 5075-entry table.
* `seeded/LOG.jsonl` the wrong programs the theorems were tested against.

## Modelling decisions

* **f32** is a 32-bit pattern. Arithmetic is *exact IEEE-754 binary32*: decode to a rational, compute exactly,
  round to nearest, ties to even, with overflow to infinity, gradual underflow, signed zeros, infinities, NaN.
  Simplification: every NaN-producing operation yields the one canonical quiet NaN (Rust leaves the payload
  unspecified); bit-moving operations (`neg`, `from_bits`) keep payloads. Assumed: no flush-to-zero, no fused
  multiply-add, no x87 excess precision.
* **Exact arithmetic.** Purely arithmetic code is written once, generically over the operations, and used at
  `F32` (what the machine computes) and at an arbitrary field, ℚ or ℝ (what the formula means). A theorem about
  the second kind says so ("exact arithmetic"); it says nothing about rounding. C112, C114–C118 and C125 connect the two.
* **Integers.** `usize`/`isize` have a symbolic width (`Cfg.w`), overflow either panics (`Cfg.checks = true`,
  debug) or wraps (release). Casts are Rust's (`as`: saturating from float, truncating between integers).
* **Memory.** A memory is a finite map from block numbers to live blocks (lists of cells); a pointer is a block and
  an offset, or null. A read or write outside a live block is `Fault.ub`; a panic is `Fault.panic`. Both are data.
  Cells are whole `f32`s. Not modelled: volatile ordering, aliasing rules (stacked borrows), byte-level alignment,
  the debug assertions inside `core`'s unchecked functions.
* **Literals** are the f32 nearest to the decimal number in the source (`lit q` at `F32` rounds `q`), at a field the
  number itself.
* **External functions** (`micromath`'s `floor`, `sqrt`, `powf`, `powi`, `exp`, `log10`, `rem_euclid`): the crate's
  source is not in /repo, so these are parameters. A theorem that needs anything about one has the needed contract
  as an explicit hypothesis, and an example shows the contract is satisfiable. Contracts: `FloorContract` (exact up to
  2^23), `RemContract` (within a rounding of the Euclidean remainder), `PowiExact` (real arithmetic), `PowiNear`
  (within 2^-19 of the exact power, relatively), `SqrtRough` (a crude relative bound), `Log10Contract`, `PowfModerate`,
  `PowfMono`, `PowfBelow`.
* **Modelled from documentation, not from source:** `f32::clamp` (panics when min > max or a bound is NaN; NaN passes),
  `f32::is_sign_positive`, `iter().sum()` for f32 (its start value is taken as `0.0`; newer versions of core start at
  `-0.0`, which differs only when every summand is `-0.0`), and `tock-registers`' `Field` (`mask` and `shift`) as used by
  `src/float/conversion.rs`.
* **Mutation.** A method taking `&mut self` returns the new value; a failing call returns `Except.error`, so the state
  after a panic is not observable. `SoftPhaseAccumulator::set_freq(mut self, …)` takes `self` by value and is modelled so.
* Where the code violates a property a user would rely on, the property's English is kept, the negation is proved
  with a witness (`…_refuted`), the strongest true part is proved (`…_partial`) and, where useful, what the code does
  instead (`…_actual`).

## Checks on the model

These are tests, not proofs; they are about the fidelity of the model, which no theorem can establish.

* `tools/hw_check.txt` (run with `lake env lean` from `lean/`): the modelled `+ - * / < <= ==`, negation, `abs`, casts from and to
  `u32`, `i32`, `i16` agree bit for bit with the machine's binary32 arithmetic on 1000289 pairs (every pair of 17 special values,
  the rest pseudo-random, half of them with close exponents).
* `lean/Verif/Props/RepoTests.lean`: the assertions of the repository's own unit tests hold on the model, checked by the kernel
  at every build. Two tests that assert results of micromath itself are left out.

## What is not modelled

* `micromath` and `tock-registers` themselves (see above), `core`'s float formatting, `benches/`, and the `#[cfg(test)]`
  modules.
* `unsafe impl Send`/`Sync` (src/memory/mod.rs:18,26, src/memory/memory_slice.rs:72): no memory model of threads beyond
  the interleaving of accesses.
* Compiler optimisations, timing, and the code generated for the wrapping of `Volatile`-free pointer accesses.

## Trusted base

* Lean's kernel (4.33.0) and Mathlib as installed.
* The axioms `propext`, `Classical.choice`, `Quot.sound`, no others; the last section lists the axioms of each theorem.
  No `sorry`, `admit`, `native_decide` or `bv_decide`. `decide +kernel` is used for whole finite tables (the
  5075-entry table and the like) and for concrete witnesses; it is checked by the kernel.
* The binary32 arithmetic of `F32/Basic.lean` need not be trusted: `Spec/Ieee.lean` restates the standard in terms of the fields of the
  word, and `Props/Ieee.lean` proves that the model satisfies it (values, `roundTiesToEven`, signs of zeros, invalid operations,
  comparisons: `ieee_value`, `ieee_rounds`, `ieee_ops`, `ieee_invalid`, `ieee_compare`) and that nothing else does (`ieee_unique`).
* The reading of the Rust source embodied in `Verif/Model`, and the conventions above.
* The reading of the English properties embodied in the theorem statements.

## Disagreements between the code and what a user would expect

Each is proved about the model; the ids lead to the theorems.

* Memory: C04 (index near `isize::MAX`), C05 (offset+length wraps in release), C06 (window reaching the end is rejected),
  C08 (last whole index rejected from 33 samples on), C16 (shrinking `change_buffer` leaves the cursor outside),
  C62 (`lookup_bl_rect(0.25)` and `(0.75)` read past the table), C71 (wavetable reads past its end once per cycle),
  C120 (delay lines are `Copy` but copies share the buffer), C121 (slices outlive their arrays),
  C153 (wrapped float indices beyond 2^31 depend on the target).
* Interpolation: C11, C13, C19 (the Lagrange readers do not pass through the samples), C183 (the delay line's
  Lagrange read of a steady signal ripples by a twenty-fourth), C47 (NaN factor accepted), C126 (`lerp` between equal
  values leaves them, and is not monotone), C132 (the fraction of a delay is rounded with the cursor).
* Filters: C26 (`AllPass` is not all-pass), C201 (clearing the buffer of a comb does not silence it),
  C101 (a NaN stays in a comb for ever), C123 (a comb never falls
  silent: it rings on at 2^-148), C167 (nor does a stable biquad), C178 (cutoffs that change at every sample can blow a filter up), C195 (below a 40000th of the sample rate a low-pass does not work, a click can make it grow for ever), C196 (no cutoff up to half the sample rate
  acts above 0.47 of it), C171 (a bell's gain of 0 is quieter than one of -1), C136 (a low shelf leaves the range of its gains unless q is 1/sqrt 2).
* Numbers: C40, C43, C45 (NaN and oversized mantissas), C54, C111, C192 (Simpson weights: integrals come out 5/3 too large),
  C56 (`tanh` is not monotone, NaN beyond 2^64), C57 (`sinh(-0)`), C60 (`-32768/32767`), C94 (`lookup_sin` off by up to
  0.2), C110 (`sinc` of tiny arguments), C164 (`sin_i16` dips by single units).
* Oscillators: C67, C69 (phase rounds to 1.0, rectangle outputs 3.0), C72 (no Nyquist check), C97 (negative shifts), C128
  (phase drifts linearly), C159 (octaves drift apart), C194 (from the sample rate on the phase creeps backwards).
* Level: C76 (infinite samples at the pan extremes), C79 (soft clippers `todo!()` inside [-1,1]), C80 (NaN).
* Envelope: C82, C84, C87 (NaN with sub-sample times), C86 (stale level), C88, C176 (retrigger jumps), C89 (2 s limit), C90
  (`set_sr` rescales nothing).

## Properties, one by one

"proved": the whole English statement. "partial": the English statement is false of the code or of part of
its domain; the manifest note says where, a theorem `…_refuted` proves the negation with a witness, and the
other theorems prove what does hold. No property is partial for lack of a proof.

| id | property | status | modelled and proved how | theorems | note |
|---|---|---|---|---|---|
| C01 | Checked element access is safe and exact | proved | block memory with `Except Fault`; case analysis on the bound | `C01_get`, `C01_assign_in`, `C01_assign_out`, `C113_from_slice`, `C113_from_slice_mut` | Any slice viewing live memory, any index. |
| C02 | Reads see the latest write through any alias | proved | histories of assigns as lists; induction on the history against a plain map from cells to values | `C02_read_your_writes` | Any history of checked writes through any number of overlapping live handles. |
| C03 | get_wrapped is indexing modulo the length | proved | `rem_euclid` on `isize` of symbolic width; integer arithmetic | `C03_get_wrapped`, `C03_wrapAt_spec`, `C03_empty_panics` | Every isize index, every non-empty slice, every pointer width. |
| C04 | get_slice_of_four_wrapped returns four consecutive wrapped samples | partial | as C03; witness index, partial for all indices that do not overflow | `C04_four_wrapped_partial`, `C04_four_wrapped_refuted` | Refuted at indices above isize::MAX-3 (panic in debug, out-of-bounds read in release); holds everywhere else. |
| C05 | A sub-slice never escapes its parent | partial | symbolic-width wrapping addition; witness in release, partial otherwise | `C05_sub_slice_inside_partial`, `C05_sub_slice_inside_refuted`, `C05_sub_slice_inside_actual` | Refuted in release builds by an offset+length that wraps: every such window is granted and reaches out of the block (C05_sub_slice_inside_actual); holds when offset+length does not overflow. |
| C06 | Every window inside a slice can be taken as a sub-slice | partial | case analysis on offset+length against the length | `C06_windows_partial`, `C06_windows_refuted` | Refuted: every window reaching exactly to the end of the slice is rejected. All other cases hold. |
| C07 | Checked interpolated read is memory safe for every float | proved | every f32 position incl. NaN/inf; saturating casts, monotone rounding of `len-1` | `C07_lerp_safe` | All 2^32 positions, every length and build configuration. |
| C08 | Checked interpolated read at a whole index is the stored sample | partial | exactness of whole numbers below 2^24; the margin test evaluated in rounded arithmetic | `C08_whole_index_partial`, `C08_last_index_partial`, `C08_whole_index_refuted` | Refuted for every buffer of 33..2^24 samples: the last whole index is rejected. Holds for all other indices, and for the last one up to 32 samples. |
| C09 | Checked interpolated read rejects out-of-range positions | proved | float comparison against the rounded length; blend spec `IsBlend` | `C09_negative`, `C09_beyond`, `C09_inside` | Lengths 1..2^24, every non-NaN position; the accepted case also gives the exact blend. |
| C10 | lerp_wrapped interpolates circularly | proved | `floor` contract; circular indexing; blend spec `IsBlend` | `C10_lerp_wrapped_inside`, `C10_lerp_wrapped`, `C10_lerp_wrapped_whole` | Assumes micromath's floor meets FloorContract (shown satisfiable). |
| C11 | lagrange_wrapped passes through the stored samples | partial | generic Lagrange kernel at window n; witness for every n ≥ 4 | `C11_through_samples_partial`, `C11_through_samples_actual`, `C11_near_actual`, `C11_through_samples_refuted` | Refuted for every window of 4 or more; holds for window 2. At position i the code returns the sample at i-w/2+1: exactly for whole samples (C11_through_samples_actual), up to w/2^22 for all others (C11_near_actual). |
| C12 | lagrange_wrapped stays in the buffer and does not panic | proved | bounds of the window loop for every position | `C12_lagrange_wrapped_inside`, `C12_lagrange_wrapped` | Assumes FloorContract; the first theorem needs nothing. |
| C13 | lagrange_four_points_wrapped interpolates between neighbours of the position | partial | four-point kernel; exact value at each position | `C13_four_points_partial`, `C13_four_points_actual`, `C13_position_actual`, `C13_cubic_actual`, `C13_four_points_refuted` | Refuted at position 1 (the code evaluates at x, not at its fractional part); holds on [0,1). The actual theorems say what every position returns and how close that is to the cubic at x. |
| C14 | null slices never serve data | proved | null pointer with length 0; case analysis | `C14_null_slice`, `C14_null_slice_interpolated` | Every index, offset, length, value, memory. |
| C15 | A delay line delays by exactly its length | proved | refinement of cursor+buffer to the list of past writes; induction on the history | `C15_delay_exactly` | Every buffer length, contents and input sequence. |
| C16 | A delay line never leaves its buffer | partial | invariant cursor < len over histories of all calls; witness with a shrinking `change_buffer` | `C16_stays_inside_partial`, `C16_stays_inside_refuted`, `C16_not_inside`, `C16_actual` | Refuted: change_buffer to a shorter buffer keeps the cursor, so the next read or write is out of bounds. C16_actual: from then on the line plays and overwrites what follows the buffer, until it leaves the allocation. Holds for histories whose buffers never shrink below the cursor. |
| C17 | read_wrapped_at(-k) is the sample written k steps ago | proved | ring-buffer invariant, integer arithmetic modulo the length | `C17_read_wrapped_at`, `C17_recent` | Every history of writes and every isize offset that does not overflow cursor+offset. |
| C18 | Interpolated delay reads agree with whole reads | proved | C17 with C10 | `C18_lerp_read_whole` | Assumes FloorContract. |
| C19 | Lagrange delay reads agree with whole reads | partial | C17 with C11 | `C19_lagrange_read_partial`, `C19_near_actual`, `C19_lagrange_read_refuted` | Refuted: the read at a whole offset returns the sample one place older, exactly for whole samples (C19_lagrange_read_partial) and up to 5/2^22 for all others (C19_near_actual). |
| C20 | Comb output is its own input path delayed by the buffer length | proved | history induction in steps of the buffer length, any arithmetic | `C20_comb` | Any arithmetic, so bit for bit in f32. |
| C21 | Comb with default settings is bounded in float arithmetic | proved | C20 and monotone rounding: 2M is a fixed bound of the rounded recursion | `C21_comb_bounded` | Binary32 with rounding, all time. |
| C22 | Comb is bounded for every stable setting | proved | C20 and the convex-combination bound | `C22_comb_stable` | Any ordered field. |
| C23 | Comb without dampening is a geometric echo | proved | C20 with dampening 0 | `C23_comb_echo`, `C23_comb_impulse` | Any field. |
| C24 | AllPass obeys its difference equation | proved | history induction, any arithmetic | `C24_all_pass`, `C24_difference_equation` | Any arithmetic; difference equation in any field of characteristic 0. |
| C25 | AllPass output is bounded in float arithmetic | proved | C24 and monotone rounding | `C25_all_pass_bounded` | Binary32 with rounding, all time. |
| C26 | AllPass has unit gain at every frequency | partial | closed form of the impulse response; its energy summed as a geometric series | `C26_all_pass_energy_refuted`, `C26_dc_gain_partial`, `C137_all_pass`, `C137_all_pass_range` | Refuted for every buffer length: the impulse response has energy 7/3. DC gain is 1; at other frequencies the gain is that of (3/2-z^L)/(z^L-1/2), between 1 and 5/3, both reached (C137). |
| C27 | Biquad::process realises the second-order difference equation | proved | induction on the input; field algebra | `C27_difference_equation` | Any field. |
| C28 | Biquad is linear and time invariant | proved | C27 and linearity by induction | `C28_linear`, `C28_time_invariant` | Any field. |
| C29 | A NaN input poisons a biquad forever | proved | NaN propagation through both state variables | `C29_nan_poison` | Any state, any later inputs and coefficients. |
| C30 | A fresh biquad with zero coefficients is silent | proved | induction with signed zeros | `C30_zero_coeffs`, `C30_zero_input` | Binary32. |
| C31 | Low-pass has unit DC gain and blocks Nyquist | proved | z-transform evaluated at ±1; second theorem by running `process` on the eigen-input | `C31_lowpass`, `C31_lowpass_measured` | Real arithmetic; the second theorem states it about runs of process. |
| C32 | High-pass blocks DC and has unit Nyquist gain | proved | as C31 | `C32_highpass`, `C32_highpass_measured` | Real arithmetic. |
| C33 | Biquad all-pass has unit magnitude everywhere | proved | complex conjugate symmetry of numerator and denominator | `C33_allpass`, `C33_allpass_everywhere` | Real arithmetic, every point of the unit circle. |
| C34 | Notch passes DC and Nyquist and kills its centre | proved | as C31, plus the zero pair on the unit circle | `C34_notch` | Real arithmetic. |
| C35 | Filter designs are stable | proved | Jury triangle conditions; decay through the modal form of the recursion | `C35_stable`, `C35_decays` | Real arithmetic; cut designs included. |
| C36 | Bell cut undoes bell boost | proved | reciprocal transfer functions; induction on the run | `C36_bell`, `C36_low_shelf` | Real arithmetic, any square-root routine. |
| C37 | Shelf and bell gains at the band edges | proved | as C31 | `C37_low_shelf`, `C37_bell` | Real arithmetic. |
| C38 | Raw word conversion is a bit-exact bijection | proved | byte loop unrolled, bit arithmetic on 32-bit words | `C38_float_word_float`, `C38_word_float_word` | Every bit pattern, both build modes. |
| C39 | Component conversion round-trips | proved | mask/shift algebra on every word | `C39_word_round_trip`, `C39_float_round_trip`, `C39_components_round_trip` | Every bit pattern. |
| C40 | Components denote the IEEE value | partial | decoding of the fields against `F32.val`; witness for the oversized mantissa | `C40_components_value`, `C40_oversized_refuted`, `C40_oversized_actual`, `C40_oversized_float` | The value formula is proved. The oversized-mantissa half is refuted: a mantissa of 24 or more bits is added into the exponent and sign fields. |
| C41 | bit_reduce truncates toward zero onto a power-of-two grid | proved | exactness of scaling by powers of two and of truncation | `C41_bit_reduce` | Binary32, exact. |
| C42 | bit_reduce is idempotent, odd, monotone and never amplifies | proved | from C41 | `C42_error`, `C42_idempotent`, `C42_odd`, `C42_monotone` | Binary32. |
| C43 | bit_reduce reports exactly the documented errors | partial | case analysis on comparisons; witness NaN | `C43_errors_partial`, `C43_nan_actual`, `C43_nan_refuted` | Errors are as documented for every input; the NaN half is refuted: NaN becomes a zero. |
| C44 | bit_reduce_exp clears low mantissa bits only | proved | bit masks on the mantissa field | `C44_bits`, `C44_over`, `C44_shrinks`, `C44_relative_error` | Every bit pattern. |
| C45 | bit_reduce_exp keeps the class of its input | partial | as C44, witness NaN | `C45_class_refuted`, `C45_class_partial` | Refuted for NaN whose surviving mantissa bits are all cleared; everything else is proved. |
| C46 | lerp classifies bad arguments | proved | case analysis on classes of floats | `C46_errors` | Binary32, every pair of samples and every factor. |
| C47 | lerp returns a number whenever it returns Ok | partial | witness NaN factor; number otherwise by error analysis | `C47_nan_refuted`, `C47_number_partial`, `C47_nan_actual` | Refuted: a NaN factor passes the range check and the result is NaN. For a factor that is a number the result is a number. |
| C48 | lerp hits its endpoints exactly | proved | exactness of ×0, ×1 and Sterbenz-free algebra of the code's formula | `C48_endpoints` | Binary32. |
| C49 | lerp stays within rounding of the segment | proved | rounding-error analysis | `C49_lerp`, `C49_between` | Binary32; within one rounding of the exact blend, and between the samples up to that rounding. |
| C50 | lagrange reproduces polynomials | proved | uniqueness of interpolating polynomials (Mathlib's Lagrange basis) | `C50_polynomial`, `C50_nodes` | Any field, every window length. |
| C51 | lagrange panics exactly on x beyond the last node | proved | float comparison with the rounded node number | `C51_panics`, `C51_panics_small`, `C51_value` | Every window; without a panic the result is the sum of C50. |
| C52 | The four-point kernel equals the general one bit for bit | proved | both kernels unfolded to the same sequence of roundings | `C52_four` | Binary32, bit for bit, every x <= 3 that is not NaN. |
| C53 | Sample/time conversions are mutually inverse | proved | field algebra; two roundings | `C53_exact`, `C53_seconds`, `C53_millis` | Exact in any field; relative error in binary32. |
| C54 | Simpson integration is exact on low-degree polynomials | partial | induction on the number of intervals; closed form of the sum | `C54_simpson_refuted`, `C54_simpson_actual`, `C54_affine_actual`, `C54_small_panics` | Refuted: the odd points are counted once too often, so every affine integrand comes out multiplied by 5/3. What the code does compute is proved for every N and every integrand. |
| C55 | fast_tan is accurate on [0,1] | proved | Taylor bounds of the real tangent on [0,1] | `C55_accurate`, `C55_odd_increasing` | Real arithmetic; powi taken as exact. |
| C56 | tanh saturates like tanh | partial | closed form of the rational function; float analysis with overflow cases | `C56_exact_partial`, `C56_shape_actual`, `C56_monotone_refuted`, `C56_float_partial`, `C56_overflow_actual`, `FMath.C56_far_actual`, `FMath.C56_bounded_actual`, `C56_bounded_refuted` | Odd up to 2^62 in float arithmetic. Monotonicity is refuted: the approximation falls beyond sqrt 2. For finite x the bound holds exactly below 2^64 (the result is 0 from 2^30 on); at 2^64 and beyond the result is NaN. |
| C57 | sinh and cosh satisfy the hyperbolic identities | partial | hyperbolic identities from exp; sign symmetry in floats | `C57_exact`, `C57_real`, `C57_cosh_even`, `C57_sinh_odd_partial`, `C57_sinh_zero_actual`, `C57_sinh_odd_refuted` | Everything holds except the sign of zero: sinh(-0) is +0. |
| C58 | sin_i16 never overflows and stays in range | proved | interval arithmetic over the loop, all phases and degrees | `C58_sin`, `C58_unchecked_panics` | Every phase, every degree, both build modes. |
| C59 | sin_i16 approximates the sine | proved | Taylor remainder of the real sine against the exact rational polynomial, plus truncation error | `C59_accurate` | Every phase, against the real sine. |
| C60 | fixed_point_sin and the sine oscillator stay in [-1, 1] | partial | float analysis of the scaling; witnesses | `C60_range_partial`, `C60_unit_refuted`, `C60_cos_partial`, `C60_cos_refuted` | Refuted: fixed_point_sin(-PI/2) and fixed_point_cos(PI) return -32768/32767. That is the only excess: every argument gives a number of [-32768/32767, 1]. |
| C61 | lookup_sin never indexes outside its table | proved | remainder contract and the table length | `C61_lookup_sin`, `C61_lookup` | Every f32; assumes RemContract of rem_euclid (shown satisfiable). |
| C62 | lookup_bl_rect is memory safe | partial | monotone rounding of the index; the two arguments found exactly | `C62_in_table_refuted`, `C62_in_table_partial` | Refuted at exactly two arguments, 0.25 and 0.75, which read one entry past the end; every other f32 stays in the table. |
| C63 | lookup_bl_rect is bounded and clamps outside (0,1) | proved | kernel evaluation of the whole table, then index arithmetic | `C63_outside`, `C63_range`, `C63_symmetry` | Every f32 other than the two bad arguments of C62. |
| C64 | sine_table phases never wrap | proved | integer arithmetic for every table size | `C64_table`, `C64_zero_step` | Every table size. |
| C65 | Phase accumulator counts modulo 2^32 | proved | induction on the number of calls, arithmetic modulo 2^32 | `C65_phase`, `C65_same_advance` | closed form of the phase after any number of reads by either method |
| C66 | Frequency, rate and shift changes keep phase continuity | proved | induction on histories with setters | `C66_counter`, `C66_output`, `C66_setters` | counter, settings and outputs after an arbitrary history of calls and setters |
| C67 | Normalized phase lies in [0,1) | partial | exact set of phases that round to 1.0 | `C67_refuted`, `C67_partial`, `C67_actual_reached` | refuted: 1.0 is returned for the 128 largest integer phases; exact characterisation, range [0,1] and error bound proved, and the bad value shown reachable without any phase shift |
| C68 | Sawtooth and triangle stay in [-1,1] | proved | monotone rounding over all accumulator states | `C68_range` | every accumulator state, so every history |
| C69 | Rectangle outputs only -1 and 1 | partial | as C68; witness 3.0 | `C69_refuted`, `C69_partial`, `C69_actual` | refuted: 3.0 is returned where the phase rounds to 1.0; exactly -1/1 with the right halves everywhere else; assumes FloorContract of the external floor |
| C70 | Waveform shapes follow the phase | proved | rounding-error analysis; monotonicity of every rounded step | `C70_saw`, `C70_tri`, `C70_saw_mono`, `C70_tri_mono` | float outputs against the ideal waves with error bounds, and monotonicity in the integer phase |
| C71 | WavetableOscillator reads only its table | partial | exact set of phases that leave the table; reachability for every table | `C71_refuted`, `C71_partial`, `C71_actual`, `C71_actual_reached` | refuted: the last 1/len of every cycle reads past the table; safe and correct below that; every table of 2..2^23 samples is overrun within one cycle at any low enough frequency |
| C72 | set_freq validates its argument | partial | case analysis on comparisons; witnesses | `C72_refuted`, `C72_partial`, `C72_actual` | refuted: NaN and frequencies above Nyquist are accepted (and the receiver is consumed); Zero and Negative errors proved exactly |
| C73 | The oscillator frequency is accurate | proved | relative error of two roundings and a truncation | `C73_step`, `C73_saturation` | sample rates from 2^-90 to 2^120 count as the normal range |
| C74 | Pan position checking | proved | case analysis | `C74_pan` | NaN amounts pass the check, as the iff says |
| C75 | Equal-amplitude gains lie in [0,1] and sum to one | proved | monotone rounding; field algebra | `C75_gains`, `C75_monotone`, `C75_exact` |  |
| C76 | Panning is mirror symmetric | partial | bit-level symmetry of negation; witness infinity | `C76_swap`, `C76_extremes_refuted`, `C76_extremes_partial`, `C76_checked`, `C76_checked_extremes` | swap law proved bit for bit for every amount and sample; the extremes hold for finite samples and fail for infinite ones (inf*0); stereo extremes assume sqrt 0 = 0 and sqrt 1 = 1 |
| C77 | Equal-power panning preserves power | proved | real square root | `C77_power`, `C77_energy` | real arithmetic with the real square root |
| C78 | digital_clip clamps to [-1,1] | proved | case analysis on clamp | `C78_clip`, `C78_monotone` | core's clamp is modelled from its documentation |
| C79 | Soft clippers return a sample for every input | partial | case analysis; witness | `C79_refuted`, `C79_partial`, `C79_actual` | refuted: the three soft clippers panic (todo!) exactly on [-1,1] and NaN |
| C80 | Decibel conversion reports its error cases | partial | `Log10Contract`; case analysis | `C80_refuted`, `C80_partial` | refuted only in 'never Ok(NaN)': a NaN input gives Ok(NaN); everything else proved for every log10 meeting Log10Contract |
| C81 | Decibel and ratio conversions are inverse | proved | real logarithm and power from Mathlib | `C81_inverse`, `C81_increasing` | real arithmetic with the real logarithm and power |
| C82 | Envelope output stays in [0,1] | partial | invariant over all histories of calls; witness | `C82_refuted`, `C82_partial`, `C82_actual`, `C82_saturating_actual`, `C82_nan_actual` | refuted: with a time far below one sample the power overflows and sustain 1 gives inf*0 = NaN; for times of at least one sample and slopes up to 20 every history is panic free and in [0,1], assuming PowfModerate of the external powf; for times and slopes of any size a sample is in [0,1] or NaN, exactly when it is NaN is an equivalence, and no NaN occurs if the power does not overflow |
| C83 | Envelope state changes only along the ADSR graph | proved | case analysis of every call in every state | `C83_state_graph` | every state and call, any powf whatsoever |
| C84 | Attack, decay and release finish | partial | variant: phase grows by a minimum step; witness | `C84_refuted`, `C84_partial`, `C84_cycle_partial`, `C84_actual` | refuted: the NaN state of C82 never leaves Decay; for times of at least one sample each stage ends within N ticks, N >= 8/(7*rate); for times of any length Attack always ends, and Decay and Release end or return NaN |
| C85 | Idle and reset are silent, sustain holds | proved | invariants over histories | `C85_idle_silent`, `C85_reset_silent`, `C85_sustain_holds` | arbitrary histories without trigger_on (idle) or without triggers and reset (sustain) |
| C86 | Release starts at the current level and never rises above it | partial | invariant release level ≤ output; witness | `C86_refuted`, `C86_partial`, `C86_actual` | refuted: set_sustain while sustaining leaves a stale level from which the release starts; proved for all histories without that call |
| C87 | Decay stays between sustain and 1 | partial | invariant | `C87_refuted`, `C87_partial`, `C87_actual` | refuted only by the NaN of C82; proved for times of any length unless sustain is 1 and the power infinite |
| C88 | Retriggering does not jump | partial | witness; exact value after a retrigger | `C88_refuted`, `C88_partial`, `C88_actual` | refuted: the phase, not the level, is carried over; after a completed decay a retrigger jumps to 1 at once |
| C89 | Time parameters mean seconds | partial | two roundings and the clamp | `C89_refuted`, `C89_partial`, `C89_actual`, `C106_new`, `C106_set` | refuted: every time above 2 s is treated as 2 s; relative error 2^-22 up to 2 s |
| C90 | Changing the sample rate rescales the envelope | partial | setter commutes with every later sample; witness | `C90_refuted`, `C90_partial` | refuted: set_sr rescales nothing; every later sample is unchanged by it |
| C91 | Envelope constructor and setters panic only on degenerate rates | proved | exact condition on the clamp bounds | `C91_new_panics`, `C91_calls_panic` | every f32 argument, NaN and infinities included |
| C92 | fixed_point_sin follows the real sine | proved | C59 plus range reduction error | `C92_sin` | real sine from Mathlib; rem_euclid is a parameter with RemContract |
| C93 | fixed_point_cos follows the real cosine | proved | as C92 with the shifted argument | `C93_cos` | real cosine from Mathlib; rem_euclid is a parameter with RemContract |
| C94 | lookup_sin follows the real sine | partial | closed form of the table function; real sine bounds | `C94_refuted`, `C94_partial`, `C94_actual` | refuted: the table stops at phase 28658 of 32768 and is read as if it covered the half turn, so lookup_sin(0) is about -0.098; C94_partial bounds the error by 1/5 + \|x\|/10^6, C94_actual gives the function really computed |
| C95 | The sine oscillator is a sine of the phase | proved | C92 at the normalized phase | `C95_sine_oscillator` | every state; rem_euclid is a parameter with RemContract |
| C96 | Functional oscillator over every history | proved | induction on histories with C68–C70, C95 | `C96_state`, `C96_output` | rem_euclid and floor are parameters with contracts |
| C97 | A phase shift is a number of turns | partial | casts of shift·2^32; exact and witness | `C97_refuted`, `C97_partial`, `C97_actual` | refuted: -1/4 turn is no shift at all; C97_partial is the claim for 0 <= s < 1, C97_actual tells what the other arguments do |
| C98 | Wavetable oscillator over every history | proved | induction on histories with C71 | `C98_state`, `C98_fault` | the possible out-of-range read is C71's |
| C99 | Comb with settings changed while it runs | proved | C20/C22 generalised to settings varying in time | `C99_modulated`, `C99_stable` | C99_modulated for any arithmetic (F32 included), the bound in exact arithmetic |
| C100 | change_buffer keeps the cursor and the settings | proved | refinement of C15/C20/C24 restarted on the new buffer | `C100_delay`, `C100_comb`, `C100_all_pass` | any arithmetic; a buffer not longer than the cursor is C16's subject |
| C101 | A comb recovers from a NaN sample | partial | induction on time: the filter state stays NaN | `C101_refuted`, `C101_partial`, `C101_actual` | refuted: the NaN stays in the low-pass state and the output is NaN for ever; C101_partial: until the NaN leaves the buffer nothing changes |
| C102 | An all-pass confines a NaN sample to its cell | proved | induction in steps of the buffer length | `C102_stays`, `C102_confined` | F32 arithmetic, every run |
| C103 | Every envelope sample is known | proved | induction on ticks in each stage | `C103_attack`, `C103_attack_end`, `C103_decay`, `C103_release`, `C103_cycle` | F32 arithmetic, any powf; C103_cycle is a whole cycle of a new envelope |
| C104 | A stage takes the time asked for | proved | C103, accumulated rounding error of the phase, power contracts | `C104_attack`, `C104_decay`, `C104_release` | F32 arithmetic, powf per PowfModerate and PowfBelow |
| C105 | Attack rises, decay and release fall | proved | C103 and monotone rounding, monotone power | `C105_attack`, `C105_decay`, `C105_release` | F32 arithmetic, powf per PowfModerate and PowfMono |
| C106 | Envelope setters are independent | proved | frame property of each setter; commutation with ticks | `C106_new`, `C106_set`, `C106_attack_only`, `C106_decay_only`, `C106_release_only`, `C106_sustain_only` | F32 arithmetic, any powf |
| C107 | Filters act at the requested cutoff | proved | intermediate value of the tangent error; transfer function at the warped frequency | `C107_cutoff` | exact arithmetic over the reals, powi exact |
| C108 | A stable biquad scales and shifts a cosine | proved | modal decay of the transient plus the steady state | `C108_sinusoid`, `C108_lowpass` | exact arithmetic over the reals |
| C109 | A stable biquad keeps bounded inputs bounded | proved | modal form, geometric series | `C109_bounded` | exact arithmetic over the reals |
| C110 | sinc returns sin(x)/x | partial | C92 divided by x; witness | `C110_refuted`, `C110_partial`, `C110_actual` | refuted: below 2^-16 the result is 0 instead of 1; the error is at most 301e-6/\|x\| + 1e-6 everywhere |
| C111 | si returns the sine integral | partial | C54's weights, accumulated rounding errors, bounds of the real integral | `C111_refuted`, `C111_actual` | refuted: the Simpson weights make si five thirds of the sine integral, shown to 1/20 for every \|x\| <= 4 |
| C112 | Correlated crossfade is a linear blend | proved | field algebra; rounding-error analysis; bit symmetry | `C112_exact`, `C112_float`, `C112_ends`, `C112_swap` | any field and F32 arithmetic |
| C113 | Slices made of arrays serve the array | proved | block memory; index arithmetic | `C113_from_slice`, `C113_from_slice_mut`, `C113_as_slice`, `C113_change_slice` |  |
| C114 | A float biquad never blows up | proved | modal norm contracts by the pole margin; rounding error absorbed; C114_fine counts the rounding of the output once and needs a margin of 2^-20 only | `C114_bounded`, `C114_fine` | F32 arithmetic |
| C115 | A float biquad follows the exact one for ever | proved | as C114 for the difference of the two runs | `C115_tracks` | F32 arithmetic against the reals |
| C116 | Designs stay stable after rounding | proved | propagation of error intervals through the design formulas, then the Jury triangle with margin; below sr/3000 half-ulp bounds per step, where the error of norm cancels | `C116_stable`, `C116_down`, `C116_low`, `C116_bell_cut`, `C116_low_shelf_cut` | F32 arithmetic; PowiNear and SqrtRough are the contracts of the external powi and sqrt |
| C117 | fast_tan on floats | proved | error intervals through the polynomial | `C117_fast_tan` | F32 arithmetic; PowiNear is the contract of the external powi (met by repeated multiplication) |
| C118 | Filters designed and run in floats never blow up | proved | C116 gives the margin, C114 the bound; below sr/600 half-ulp errors of each design step give a margin of 2^-20 and C114_fine the bound | `C118_never_blows_up`, `C118_bass` | F32 arithmetic from design to output |
| C119 | Processors on separate buffers do not interfere | proved | frame lemmas: a tick writes inside its own slice only; induction over the schedule | `C119_independent` | any schedule, any disjoint slices |
| C120 | A copy of a delay line is independent | partial | kernel-checked run of two copies on one buffer; the partial theorem from the frame lemmas | `C120_refuted`, `C120_actual`, `C120_partial` | refuted: copies share the buffer but not the cursor, so the original reads what the copy wrote; independent once the copy has a buffer of its own (change_buffer) |
| C121 | A slice cannot outlive its buffer | partial | the model frees the block; the read is Fault.ub | `C121_refuted`, `C121_actual`, `C121_partial` | refuted: from_slice keeps no lifetime, reading after the array is gone is undefined behaviour; dropping other arrays does no harm |
| C122 | A modulated comb stays bounded in floats | proved | induction over the ticks with the rounding of every product and sum bounded by powers of two | `C122_bounded` | F32 arithmetic, settings changed at every tick |
| C123 | A comb falls silent after its input does | partial | kernel-checked run of 361 ticks to a fixed point, in stages of 20; for the bound, each round of the buffer shrinks a pair of bounds on cells and filter state | `C123_refuted`, `C123_actual`, `C123_partial` | refuted: an impulse of 1.0 leaves a comb with default settings ringing at 2^-148 for ever; it does come down to 2^-148 within 1096 rounds of the buffer |
| C124 | An all-pass falls silent after its input does | proved | each round of the buffer halves the bound on the cells, rounding included; the last unit rounds to zero | `C124_all_pass_silent` | F32 arithmetic, denormals included |
| C125 | Rounding errors of comb and all-pass do not build up | proved | linear error recursion with a contraction factor below 1, invariant over the ticks | `C125_comb`, `C125_all_pass` | F32 arithmetic against exact rationals |
| C126 | Interpolation keeps shape after rounding | partial | kernel-checked witnesses; for the partial claims monotonicity of rounding, step by step | `C126_constant_refuted`, `C126_range_refuted`, `C126_monotone_refuted`, `C126_refuted`, `C126_exact_partial`, `C126_partial`, `C126_near_partial` | refuted: lerp(3,3,0.1) is below 3, lerp(0.7,0.7,0.15) above 0.7, and from 1 to 2 it goes back by an ulp; true when the ends have opposite signs, and up to 6/2^24 always |
| C127 | Comb and all-pass are linear and time invariant | proved | induction over the ticks on the queue form of the buffers | `C127_comb_linear`, `C127_all_pass_linear`, `C127_comb_time_invariant`, `C127_all_pass_time_invariant` | exact arithmetic, any field |
| C128 | An oscillator does not drift | partial | the step is a whole number: its distance from the ideal accumulates; C73 bounds it from above, the witness from below | `C128_refuted`, `C128_actual`, `C128_pitch_actual`, `C128_partial` | refuted: 440 Hz at 48 kHz is off by more than 1/100 turn after 2^26 samples; the drift is linear, at most 2^-32 + 2^-22 f/sr turns per sample |
| C129 | Bit depths compose | proved | truncation to nested power-of-two grids | `C129_bit_reduce`, `C129_bit_reduce_exp` | F32, bit for bit |
| C130 | Panning keeps power after rounding | proved | rounding of gains and products bounded, then the contract of the square root | `C130_gains`, `C130_power` | F32 arithmetic; the square root by contract, met by micromath's with eps = 0.126 |
| C131 | Sine and cosine stay in quadrature | proved | from C92 and C93 | `C131_circle` | F32 arithmetic against the real functions; rem_euclid by contract |
| C132 | A fractional delay does not depend on the cursor | partial | the float sum of cursor and offset bounded (actual) or exact (partial); kernel-checked witness | `C132_refuted`, `C132_actual`, `C132_partial` | refuted: the offset is added to the cursor in f32, which rounds its fraction; off by at most (L+2)/2^24 samples, exact when the fraction has k bits with L*2^k <= 2^24 |
| C133 | Four-point interpolation follows the cubic after rounding | proved | rounding error of each factor of each term propagated; the cubic by C50; the overshoot by the signs of the basis polynomials | `C133_accuracy`, `C133_overshoot` | F32 arithmetic against the exact cubic |
| C134 | Low-pass and high-pass are monotone or peak as q says | proved | the squared magnitude as a rational function of the real part, then polynomial inequalities | `C134_monotone`, `C134_slope`, `C134_peak` | exact arithmetic; frequencies as points of the unit circle, as heard through C108 |
| C135 | Notch and bell have the width and height asked for | proved | same, with the half-power condition factored | `C135_notch_range`, `C135_notch_width`, `C135_bell_range`, `C135_bell_slopes` | exact arithmetic |
| C136 | A low shelf stays between its two gains | partial | same; the witness at the centre frequency | `C136_refuted`, `C136_actual`, `C136_partial`, `C136_monotone_partial` | refuted: at q = 1 a shelf of gain 2 reaches sqrt 5; true exactly for q = 1/sqrt 2 (`C136_actual`) |
| C137 | Comb and all-pass answer a cosine with a scaled cosine | proved | a particular solution of the recurrences (C20, C24) plus geometric decay of the free motion | `C137_comb`, `C137_comb_range`, `C137_comb_constant`, `C137_all_pass`, `C137_all_pass_range` | exact arithmetic, on the model's runs |
| C138 | tanh follows the hyperbolic tangent near zero | proved | tanh enclosed between two of its convergents by monotonicity of the difference; rounding of each step propagated | `FMath.C138_exact`, `FMath.C138_exact_abs`, `FMath.C138_float` | F32 arithmetic against Real.tanh |
| C139 | A whole voice never fails and stays in range | proved | one invariant per part (C65, C99, C20, C118, C78) carried through the composed step | `C139_voice`, `C139_silence` | F32 arithmetic, block memory, all touches; micromath functions under their contracts |
| C140 | Rounding keeps the zeros of the designs | proved | rounding commutes with doubling, so b1 is exactly twice b0; the all-pass by reversal of the coefficients | `C140_zeros` | rounded coefficients, gains and runs of the filter in exact arithmetic |
| C141 | A float low-pass has unit gain on constants up to rounding | proved | relative error of numerator and denominator; kernel-checked witnesses | `C141_dc`, `C141_off` | rounded coefficients, gains and runs of the filter in exact arithmetic; C141_off shows the size of the bounds is right |
| C142 | A network of processors is the composition of its parts | proved | induction over the processors: the orbit of each is the same in every memory that holds its queue (frame lemma of C119) | `C142_network` | any arithmetic; wires are arbitrary functions of the input and of the answers earlier in the tick |
| C143 | A reverb stays bounded for ever | proved | C142 with the bounds of one comb and one all-pass carried along the signal flow | `C143_reverb` | F32 arithmetic, block memory; the reverb is a network of C142 |
| C144 | The rectangle table holds the sine integral | proved | kernel-checked integer rotation and Simpson sum for the whole table; Simpson's error through sinc as a mean of cosines | `FMath.C144_table` | Simpson's rule in integers checked by the kernel, its error against the integral proved |
| C145 | lookup_bl_rect follows the band-limited rectangle | proved | chord error of a function with Lipschitz derivative, index rounding, table error (C144), rounding of the blend | `FMath.C145_lookup` | the two excluded phases are the reads past the table of C62 |
| C146 | A wavetable plays the waveform it was sampled from | proved | chord error of a function with Lipschitz derivative, phase and index rounding, rounding of the blend | `C146_waveform`, `C146_sine` | tables up to 2^24 samples, each sample at most 2 in magnitude; the phases that leave the table are those of C71 |
| C147 | The filter designs fit together | proved | filters as quotients of power series with one denominator | `C147_notch`, `C147_allpass`, `C147_bell` | exact arithmetic, every input; powi assumed exact |
| C148 | Cascaded sections make the Butterworth filter of higher order | proved | X^2n + 1 through the roots of unity; decaying inputs through stable filters | `C148_lowpass`, `C148_highpass`, `C148_chain` | exact arithmetic; the warped frequency is the code's own tangent polynomial (C107 relates it to the cutoff) |
| C149 | Crossovers built from the designs are all-pass | proved | identity of power series after clearing denominators | `C149_crossover`, `C149_second_order` | exact arithmetic; the fourth-order sum sample by sample, the second-order one as a gain |
| C150 | Oscillators are exactly periodic | proved | closed form of the counter, cancellation modulo 2^32 | `C150_phase`, `C150_functional`, `C150_wavetable` | an equivalence: the period is the least one |
| C151 | The waves have no DC offset | proved | one period visits a residue class once; half-wave symmetry; counting of edge phases | `C151_sawtooth`, `C151_triangle`, `C151_sine`, `C151_rectangle` | means of the float outputs; the rectangle's 3.0 values of C69 included |
| C152 | What a debug build returns, a release build returns | proved | a relation between the two monadic programs kept by bind | `C152_slice`, `C152_interpolated`, `C152_delay`, `C152_functions`, `C152_bits`, `C152_oscillators`, `C152_network`, `C152_voice` | one direction only: an example shows a release build returning where a debug build panics |
| C153 | Results do not depend on the word size of the target | partial | index arithmetic that stays below 2^31 is exact on both targets; far indices fault on both | `C153_refuted`, `C153_slice_partial`, `C153_interpolated_partial`, `C153_delay_partial`, `C153_network_partial`, `C153_voice_partial`, `C153_tables_partial` | beyond 2^31 the index of the wrapped readers saturates at isize::MAX of the target; proved for indices up to 2^30 and for everything that does not take an index from the caller |
| C154 | Inverting the signal inverts the output, and the sign of a zero never matters | proved | a sign relation on floats, memories and programs, kept by every operation | `C154_readers`, `C154_biquad`, `C154_network`, `C154_level`, `C154_wavetable` |  |
| C155 | Rounded biquads with any stable poles stay bounded and follow the exact filter | proved | two nested contractions, one per pole, with the rounding of each step as a disturbance | `C155_bounded`, `C155_tracks`, `C155_margin` | extends C114 and C115 to real and double poles |
| C156 | Every design, flat, boosting or cutting, and chains of them never blow up in floats | proved | margins of the rounded coefficients, then C114 or C155; induction over the chain; below sr/600 with the margin of C118_bass | `C156_never_blows_up`, `C156_chain`, `C156_bass`, `C156_bass_chain` | F32 arithmetic from design to output; PowiNear and SqrtWithin are the contracts of the external powi and sqrt |
| C157 | The unchecked bit reducers, for every float and every depth | proved | exactness of scaling below 2, a 32-entry table of saturated results, bits of the word | `C157_panics`, `C157_zero`, `C157_bit_reduce`, `C157_bit_reduce_exp` | extends C41, C43 and C44 beyond the guards of the checked forms |
| C158 | Oscillators keep their phase relation | proved | a relation kept by every call | `C158_counter`, `C158_output` |  |
| C159 | Octaves stay in phase | partial | scaling by powers of two commutes with rounding (F32/Scale.lean); floor of the scaled product | `C159_refuted`, `C159_partial`, `C159_actual` | refuted: 110 Hz runs away from 55 Hz at 48 kHz because each step is truncated by itself; exact when the lower step is 2^23 or more, otherwise a constant lead below 2^k per sample |
| C160 | Only the ratio to the sample rate matters | proved | scaling by powers of two commutes with rounding; relations between the two runs kept by every call | `C160_design_exact`, `C160_design_float`, `C160_phase`, `C160_oscillator`, `C160_wavetable`, `C160_envelope` | floats: factors 2^k; envelope times up to 2 s (C89) |
| C161 | Which sine tables compile | proved | case split on the overflow of each entry | `C161_compiles`, `C161_fails`, `C64_table` | extends C64 to sizes above u16::MAX |
| C162 | The filters as computed in floats are the textbook analogue filters, at every frequency | proved | coefficient errors divided by a lower bound of the denominator on the unit circle; Spec/Analog.lean holds the analogue sections | `C162_response`, `C162_corner` |  |
| C163 | A signal 2^k times as loud comes out exactly 2^k times as loud | proved | the generic code run on marked floats; one parametricity argument relates that run to the plain run and to the louder run | `C163_biquad`, `C163_network`, `C163_needed` | the side condition is computed by running the same code on floats that carry a mark |
| C164 | The fixed-point sine rises and is odd | partial | the polynomial rewritten in natural numbers (proved the same), one pass over its whole domain in the kernel with the highest and the last value carried along | `C164_refuted`, `C164_partial`, `C164_step_partial`, `C164_odd` | refuted: from phase 32760 to 32761 it falls from 32765 to 32764; no later value is more than 2 units lower, each step is between -1 and +2 units, and the values at z and -z sum to 0, -1, -2 or -3 units; all bounds are reached |
| C165 | The loudness of the waves | proved | the counter runs over equally spaced values in a period (C142), whose squares sum in closed form; the float wave stays close to the ideal one (C151), and close signals have close powers | `C165_sawtooth`, `C165_triangle`, `C165_sine`, `C165_rectangle` | float arithmetic; spec is the mean square over the exact period; the triangle needs a step above 0, the sine one that is neither 0 nor exactly half the sample rate |
| C166 | A higher frequency never gives a lower pitch | proved | rounding is monotone, so are the division, the product and the saturating conversion; distinct pitches from the relative error of each step | `C166_frequency`, `C166_rate`, `C166_distinct` | F32 arithmetic, with the saturating conversion; spec MovesBy speaks of the counter only |
| C167 | A stable filter forgets its past and falls silent | partial | one pole's combination of the two states contracts (as in C155), now from any state and with the rounding as an input; the stuck state is reached by 262 steps in the kernel and is a fixed point | `C167_refuted`, `C167_partial`, `C167_stuck`, `C167_recovers`, `C167_forgets`, `C167_forgets_float` | falling silent is refuted: the low-pass at 3 kHz (q 1/2, 48 kHz) rings on at 2^-148 for ever after a single sample of 1; in the end nothing but zeros and denormals comes out; the forgetting is proved, exactly and in floats up to what rounding makes of the input |
| C168 | Decibels in float arithmetic | proved | errors carried through the four operations of decibels.rs; Lipschitz bounds of log10 and of 10^x over the reals join the two directions | `C168_decibels`, `C168_ratio`, `C168_there_and_back`, `C168_back_and_there` | float arithmetic with every rounding; log10 and the power of ten are contracts Log10Within and Pow10Within with any error (satisfied by the rounded exact functions) |
| C169 | A longer time asked for never makes a stage faster | proved | rounding is monotone, so the rate falls with the time and the phase of the slower envelope stays behind; one relation between the two envelopes is kept by every tick | `C169_attack`, `C169_decay`, `C169_release` | float arithmetic; contracts PowfModerate and PowfMono, times of at least one sample |
| C170 | Cutoff and q turn the right way | proved | the squared magnitude of each design in closed form (C134, C135), compared at the same point of the unit circle; in floats, every term of fast_tan is monotone and so is each rounding | `C170_cutoff`, `C170_resonant`, `C170_q`, `C170_fast_tan`, `C170_floats` | responses in exact arithmetic; fast_tan and the design parameters in floats, powi under the contracts PowiNear and PowiMono |
| C171 | The gain of a bell turns the right way | partial | the same closed forms for both branches of bell; the witness is the centre of a bell at gain -1 and at gain 0 | `C171_refuted`, `C171_partial` | refuted: a gain of -1 is flat but a gain of 0 takes the centre away altogether; proved among the boosts (gain >= 0) and among the cuts (gain < 0) |
| C172 | A comb keeps the order of signals | proved | every rounding is monotone, and so is every step of the comb as long as its factors are not negative; one relation between the two runs is kept by every tick | `C172_order`, `C172_feedback` | float arithmetic with every rounding; room as in C122 |
| C173 | The spectrum of the waves | proved | the samples of a period are the wave at T equidistant phases (C151); the harmonics of the ideal waves in closed form by geometric sums of roots of unity, the others by the distance to them; Parseval's identity for the total | `C173_sawtooth`, `C173_triangle`, `C173_rectangle`, `C173_sine`, `C173_distortion` | float arithmetic; micromath's floor and rem_euclid under FloorContract and RemContract |
| C174 | Which filters overshoot | proved | a recurrence with complex roots cannot keep one sign (its ratios fall by a fixed amount); with real roots that are not negative the increments stay non-negative; the high-pass by its running sum | `C174_overshoot`, `C174_no_overshoot`, `C174_highpass` | exact real arithmetic with the code's fast_tan; K is the warped cutoff of C107 |
| C175 | How long a comb rings | proved | the recurrence of C20 with 1 - 0 = 1 exact, one rounding per echo; the time by bounds on exp and log with the roundings as a relative and an absolute error | `C175_echo`, `C175_reverberation_time` | float arithmetic with every rounding |
| C176 | An envelope does not click | partial | refuted by a gate opened twice; for gates opened when idle an invariant says that the last sample is the curve of the current stage at the current time, and one step of time moves the power by at most W | `C176_refuted`, `C176_partial`, `C176_actual` | refuted: trigger_on during the attack restarts it from zero; proved for all histories in which the gate is opened only when idle and closed at any time |
| C177 | What the filters do to the energy of a signal | proved | a stored energy (a quadratic form in the states of the filter) that grows by at most input energy minus output energy in each step; totals because the states of a stable filter fade | `C177_fades`, `C177_allpass`, `C177_allpass_total`, `C177_split`, `C177_split_total`, `C177_notch`, `C177_bell_boost`, `C177_bell_cut`, `C177_bell_below_one`, `C177_bell_cut_below_one`, `C177_low_shelf_boost`, `C177_low_shelf_cut`, `C177_resonance` | exact real arithmetic with the code's fast_tan; energy is the sum of squares; the low shelf at q = 1/sqrt 2 |
| C178 | Turning the cutoff while the filter runs | partial | refuted by running the floats in the kernel; the partial theorem carries the bound of C163 over each change of settings, paying a factor for the change that the hold makes good; the free one is a bound on |y| by |a1| and |a2| | `C178_refuted`, `C178_partial`, `C178_free` | refuted: a low-pass of q = 2 moved between 1200 and 14400 Hz at every sample overflows; proved for settings that are held long enough for the poles' margin, and for any changes at all when \|a1\| + \|a2\| < 1 |
| C179 | Modulating the cutoff within an octave | proved | a common quadratic form in (z1 + z2, k (z2 - z1)) that one step of every filter with cutoff in the octave shrinks by a fixed factor (the state map is a Cayley transform); in floats the rounding is paid from that loss, and rounded coefficients are those of a slightly different cutoff and q | `C179_exact`, `C179_forgets`, `C179_designs`, `C179_float`, `C179_float_designs` | one quadratic form that every setting in the octave makes smaller; floats with powi to 2^-19 and a rough sqrt |
| C180 | What the delay effects do to the energy of a signal | proved | the recurrences of C20 and C24; a weighted sum of the energy in the buffer and of the low-pass state as storage, one sum of squares per step | `C180_comb`, `C180_all_pass` | exact real arithmetic; energy is the sum of squares |
| C181 | A delay line returns the signal at the delayed time | proved | C132_actual for the position, the buffer contents from C17's writes, the chord and Lipschitz bounds of a smooth signal from C146 | `C181_signal`, `C181_doppler` | IEEE arithmetic; floor by its contract; signals bounded by 2 |
| C182 | How the filters turn the phase | proved | the designs are the analogue sections at tan(theta/2)/k, whose common denominator has the argument pi/2 - arctan(Q(1/x - x)); C108 turns gains into steady-state signals, C162 carries it to floats | `C182_phase`, `C182_sinusoid`, `C182_float` | exact real arithmetic for the first two; IEEE coefficients for C182_float, external powi by PowiNear |
| C183 | A Lagrange read of a delay line is accurate to fourth order | partial | the five-term kernel in floats (four factors a term, Near), Rolle four times for the interpolation error, C132's position; refuted by a steady 1 through eight cells, evaluated in the kernel | `C183_refuted`, `C183_actual`, `C183_partial` | refuted: the window of 5 holds four samples and a zero, so the read is one sample late and carries a ripple of up to a twenty-fourth of the signal (a steady 1 reads as 1.0417); C183_actual gives the read with that ripple, accurate to fourth order; C183_partial bounds the error against the signal |
| C184 | How a filter rings | proved | the free recurrence with complex roots solved in closed form; the six designs share their poles; the series of log((1+a)/(1-a)) for the time; C155 carries it to floats | `C184_rings`, `C184_time`, `C184_pitch`, `C184_any`, `C184_float` | exact real arithmetic for the designs, external powi by PowiExact; C184_any holds of any coefficients with complex poles, C184_float of IEEE arithmetic |
| C185 | Where a comb resonates | proved | the low-pass factored into size and lag (arctan); the intermediate value theorem on length times pitch plus lag finds each partial; C137 turns gains into settled outputs | `C185_range`, `C185_strength`, `C185_bound`, `C185_dampening`, `C185_partials`, `C185_partials_odd` | exact real arithmetic; C185_bound uses that the settled strength is one number (strength_unique) |
| C186 | Delay effects run in floats answer a tone as the exact ones do | proved | three combs with the same contents side by side: floats against exact rationals (C125), rationals against the real tone (differences of inputs shrink by the feedback), the real comb against its steady state (C137, C185) | `C186_comb`, `C186_partials`, `C186_all_pass` | IEEE binary32; the stated distance is reached up to any positive slack |
| C187 | Periodic in, periodic out | proved | the output one period later differs by the trace of another state, which dies geometrically, so the outputs of successive periods have a limit; floats have finitely many states | `C187_biquad`, `C187_comb`, `C187_all_pass`, `C187_biquad_float`, `C187_comb_float`, `C187_all_pass_float`, `C187_voice` | exact real arithmetic for the first three theorems, IEEE binary32 for the others; RemContract for the voice |
| C188 | sinh and cosh are as accurate as the exponential | proved | each rounding adds 2^-24 at the scale of cosh, which is at least 1 | `C188_cosh`, `C188_sinh`, `C188_identity` | IEEE binary32 against the real functions; exp by the contract ExpWithin with any error up to 1 (1/4 for the identity) |
| C189 | Clipping, panning and crossfading make no steps of their own | proved | clipping is a projection onto an interval; the crossfade is bilinear in position and signals, its rounding bounded by C112 | `C189_clip`, `C189_crossfade`, `C189_pan`, `C189_power` | IEEE binary32, except the equal-power gains, which are in real arithmetic with the real square root |
| C190 | A count of samples survives its conversion to time | proved | the two (four) relative errors of 2^-24 stay below half a sample | `C190_seconds`, `C190_millis`, `C190_monotone` | IEEE binary32 |
| C191 | How far an envelope moves in one sample | proved | subadditivity of t^p for p <= 1 and Bernoulli's inequality for p >= 1 give the modulus C176 asks for | `C191_step`, `C191_first`, `C191_jump` | IEEE binary32; powf by the contract PowfNear (and PowfModerate for C191_step) |
| C192 | Simpson integration converges to the integral | partial | the rule is 8/3 of the trapezoidal rule less the trapezoidal rule on half the intervals, and Mathlib bounds the error of both | `C192_refuted`, `C192_never`, `C192_limit`, `C192_even`, `C192_odd`, `C192_odd_near`, `C192_sharp` | refuted: the result tends to five thirds of the integral, so never to the integral unless that is zero; proved for every twice differentiable integrand with error at most 5\|b-a\|^3 max\|f''\|/(9N^2) on even N (second order is sharp) and first order on odd N, where the last points are left out; real arithmetic |
| C193 | A flanger never blows up | proved | each read is a blend of cells up to three roundings (C132), so one pass takes a bound B to (A + cB)(1 + 2^-21) | `C193_bounded`, `C193_silent` | IEEE binary32; floor by its contract; the flanger loop is the user's, its two calls are the crate's |
| C194 | Tones beyond half the sample rate fold | partial | complementary steps keep the phases opposite modulo a turn (C96, C66); two roundings bound the sum of the steps, the cast to u32 saturates from sr on | `C194_refuted`, `C194_folds`, `C194_sine`, `C194_triangle`, `C194_stuck` | refuted for f + sr: from sr on the step saturates and every frequency gives the same slow backward wave (C194_stuck); folding about sr/2 holds for every pair of frequencies that add up to sr, with a phase drift of at most 1026 * 2^-32 turn per call from rounding |
| C195 | A low-pass works however low its cutoff | partial | 1 + a1 + a2 is a multiple of 2^-24 while the numerator is below 2^-25; one filter is followed for 18120 samples by integer arithmetic in the kernel, then doubling commutes with rounding | `C195_refuted`, `C195_doubles`, `C195_never` | refuted: at 0.9 Hz and 44.1 kHz the float filter's output doubles every 4308 samples after a single click, for every powi of the contract (C195_doubles). Below sr/40000 no rounded low-pass passes constants: less than half comes out, or the output grows for ever (C195_never, coefficients rounded, filter run in exact arithmetic). From sr/10000 up the poles are inside the unit circle (C116_down) and from sr/2400 up the filter run in floats stays bounded (C118, C156_bass); between sr/40000 and sr/10000 nothing is claimed |
| C196 | Filters act at the cutoff asked for up to half the sample rate | partial | the arctangent of the polynomial against its argument by comparing derivatives; the numerator of the notch has one pair of zeros | `C196_refuted`, `C196_ceiling`, `C196_near`, `C196_below`, `C196_acts`, `C196_only` | refuted: fast_tan stays finite, so no cutoff up to sr/2 acts above 0.47 sr (C196_ceiling, C196_only: the notch blocks no other frequency). True: up to 0.4 sr within 1.3 percent, never above what was asked for, and rising with it. Exact arithmetic over the reals, powi exact |
| C197 | A filter sweep driven by the envelope never fails | proved | f + f g stays in one octave after rounding, so C179 bounds the filter; envelope and oscillator by their own invariants | `C197_synth`, `C197_silence` | F32 arithmetic throughout; micromath functions under their contracts; the chain itself is the user's |
| C198 | How late the filters are | proved | the delayed value is itself a run of the filter from one state; runs from two states come together (C167) | `C198_filters`, `C198_equalisers`, `C198_time`, `C198_comb`, `C198_all_pass` | exact arithmetic; sqrt of the shelves is a parameter |
| C199 | Effects in series may be put in any order | proved | each stage is a quotient of power series in the one-sample delay; a chain has the product, which is commutative | `C199_any_order`, `C199_rack` | exact arithmetic, over any field; in floats the order changes rounding (example beside the theorem) |
| C200 | A chain of effects is known by its impulse response | proved | the quotient of power series of C199 applied to 1 is the impulse response; multiplying by it is convolution | `C200_convolution`, `C200_determines`, `C200_peak` | exact arithmetic, over any field (the peak over the reals) |
| C201 | Clearing the buffer silences the effect | partial | the fill loop by induction over the places written; silence by induction in strides of the buffer length; the comb by one tick, a clearing and two ticks | `C201_refuted`, `C201_partial`, `C201_actual`, `C201_remedy`, `C201_handle`, `C201_fill` | refuted for the comb: its filter state is not in the buffer, and it comes back one buffer length after the clearing (C201_actual gives the value in any arithmetic). The slice handed out is the whole buffer and only that (C201_handle, C201_fill); delay lines, all-passes and combs with a zero filter state are silenced for good, in f32 (C201_partial); so is any comb with a finite filter state if it is ticked once at dampening zero after the clearing (C201_remedy) |
| C202 | Different settings make different effects | proved | the three samples give b0, a1 and a2 one after the other; those give k^2 and k/q; fast_tan is strictly increasing | `C202_settings`, `C202_bell`, `C202_flat`, `C202_comb`, `C202_comb_flat` | exact arithmetic over the reals (the comb over any field), powi exact; the low shelf is not part of the claim |
| C203 | Effects lose nothing | proved | every stage answers a click, so its numerator is not zero, and power series over a field have no zero divisors; the float witness is a click followed by 2^-60 | `C203_lossless`, `C203_needed`, `C203_designs`, `C203_undo`, `C203_float_loses` | exact arithmetic, over any field (the designs over the reals, powi exact, the square root any nonnegative function); C203_float_loses is in f32 |
| C204 | Latency | proved | the states agree as long as the inputs did; for the chain, the click answer of a stage starts at its latency and answers are convolutions | `C204_biquad_causal`, `C204_effect_causal`, `C204_chain`, `C204_exactly` | the first two in any arithmetic, f32 included, from any state; the others in exact arithmetic, over any field, from silence |
| C205 | A comb with a feedback of one or more | proved | multiplying by one and adding zero is exact; the charge of a comb changes by the input and (feedback - 1) times the filter state | `C205_freeze`, `C205_infinite_state`, `C205_kept`, `C205_unbounded`, `C205_never_dies` | C205_freeze and C205_infinite_state (why the filter state must be finite) in f32; C205_kept over any field; the last two over the reals, from silence |
| C206 | A comb with a dampening of one | proved | the filter state times one plus zero is itself | `C206_exact`, `C206_float`, `C206_delay` | C206_exact over any field, the others in f32 |
| C207 | Panned signals in mono | proved | the square of the sum of the two roots; the float sum is a crossfade of the sample with itself, C112 | `C207_mono_pan`, `C207_stereo_pan`, `C207_hump`, `C207_moves`, `C207_float` | the first four over the reals with the exact square root; C207_float in f32 |

## Code covered, function by function

Generated from the citations in `lean/Verif/Model` (`tools/fnmap.py`); a function without a model definition is
explained in the last column. Trait declarations (signatures without body) are left out.

| file | lines | function | model definitions |
|---|---|---|---|
| src/all_pass.rs | 14-18 | AllPass::new | `new` |
| src/all_pass.rs | 21-23 | AllPass::change_buffer | `changeBuffer` |
| src/all_pass.rs | 25-27 | AllPass::get_ptr_slice_mut | `AllPass.getPtrSliceMut` |
| src/all_pass.rs | 29-39 | AllPass::tick | `tick` |
| src/biquad/butterworth.rs | 25-34 | BiquadCoeffs::new | `new` |
| src/biquad/butterworth.rs | 37-40 | BiquadCoeffs::setup_coeffs | `setupCoeffs` |
| src/biquad/butterworth.rs | 42-53 | BiquadCoeffs::lowpass | `lowpassOf`, `lowpass` |
| src/biquad/butterworth.rs | 55-66 | BiquadCoeffs::highpass | `highpassOf`, `highpass` |
| src/biquad/butterworth.rs | 68-79 | BiquadCoeffs::allpass | `allpassOf`, `allpass` |
| src/biquad/butterworth.rs | 81-92 | BiquadCoeffs::notch | `notchOf`, `notch` |
| src/biquad/butterworth.rs | 95-106 | BiquadCoeffs::bell_boost_only | `bellBoostOf`, `bellBoost` |
| src/biquad/butterworth.rs | 109-121 | BiquadCoeffs::bell_cut_only | `bellCutOf`, `bellCut` |
| src/biquad/butterworth.rs | 123-129 | BiquadCoeffs::bell | `bell` |
| src/biquad/butterworth.rs | 132-143 | BiquadCoeffs::low_shelf_boost_only | `lowShelfBoostOf`, `lowShelfBoost` |
| src/biquad/butterworth.rs | 146-158 | BiquadCoeffs::low_shelf_cut_only | `lowShelfCutOf`, `lowShelfCut` |
| src/biquad/butterworth.rs | 160-166 | BiquadCoeffs::low_shelf | `lowShelf` |
| src/biquad/mod.rs | 42-49 | Biquad::new | `new` |
| src/biquad/mod.rs | 51-58 | Biquad::process | `process` |
| src/clipping.rs | 4-6 | digital_clip | `digitalClip` |
| src/clipping.rs | 8-16 | tanh_clip | `tanhClip` |
| src/clipping.rs | 18-26 | poly_clip | `polyClip` |
| src/clipping.rs | 28-36 | sigmoid_clip | `sigmoidClip` |
| src/comb.rs | 18-26 | Comb::new | `new` |
| src/comb.rs | 29-31 | Comb::change_buffer | `changeBuffer` |
| src/comb.rs | 33-35 | Comb::get_ptr_slice_mut | `Comb.getPtrSliceMut` |
| src/comb.rs | 37-40 | Comb::set_dampening | `setDampening` |
| src/comb.rs | 42-44 | Comb::set_feedback | `setFeedback` |
| src/comb.rs | 46-55 | Comb::tick | `tick` |
| src/decibels.rs | 22-24 | Decibels for f32::to_decibels_unchecked | `toDecibelsUnchecked` |
| src/decibels.rs | 27-33 | Decibels for f32::to_decibels | `FpCategory`, `toDecibels` |
| src/decibels.rs | 36-46 | Decibels for f32::to_decibels_checked | `FpCategory`, `toDecibelsChecked` |
| src/decibels.rs | 49-51 | Decibels for f32::to_volt_ratio | `toVoltRatio` |
| src/delay_line.rs | 14-16 | DelayLine::new | `new` |
| src/delay_line.rs | 19-21 | DelayLine::change_buffer | `changeBuffer` |
| src/delay_line.rs | 24-26 | DelayLine::get_ptr_slice_mut | `getPtrSliceMut` |
| src/delay_line.rs | 28-30 | DelayLine::read | `read` |
| src/delay_line.rs | 32-34 | DelayLine::read_wrapped_at | `readWrappedAt` |
| src/delay_line.rs | 36-38 | DelayLine::read_lerp_wrapped_at | `readLerpWrappedAt` |
| src/delay_line.rs | 40-42 | DelayLine::read_lagrange_wrapped_at | `readLagrangeWrappedAt` |
| src/delay_line.rs | 44-54 | DelayLine::write_and_advance | `writeAndAdvance` |
| src/delay_line.rs | 56-62 | DelayLine::advance | `advance` |
| src/delay_line.rs | 64-66 | DelayLine::len | `len` |
| src/envelope.rs | 37-58 | AudioRateADSR::new | `new` |
| src/envelope.rs | 64-66 | AudioRateADSR::set_attack | `setAttack` |
| src/envelope.rs | 68-70 | AudioRateADSR::set_decay | `setDecay` |
| src/envelope.rs | 72-74 | AudioRateADSR::set_sustain | `setSustain` |
| src/envelope.rs | 76-78 | AudioRateADSR::set_release | `setRelease` |
| src/envelope.rs | 80-82 | AudioRateADSR::set_slope | `setSlope` |
| src/envelope.rs | 84-86 | AudioRateADSR::set_sr | `setSr` |
| src/envelope.rs | 88-90 | AudioRateADSR::get_state | `getState` |
| src/envelope.rs | 96-104 | AudioRateADSR::tick | `tick` |
| src/envelope.rs | 106-109 | AudioRateADSR::reset | `reset` |
| src/envelope.rs | 111-121 | AudioRateADSR::trigger_on | `triggerOn` |
| src/envelope.rs | 123-132 | AudioRateADSR::trigger_off | `triggerOff` |
| src/envelope.rs | 138-149 | AudioRateADSR::next_attack | `nextAttack` |
| src/envelope.rs | 151-162 | AudioRateADSR::next_decay | `nextDecay` |
| src/envelope.rs | 164-176 | AudioRateADSR::next_release | `nextRelease` |
| src/envelope.rs | 179-181 | set_time_parameter | `setTimeParameter` |
| src/fixed_point/math.rs | 9-15 | sin_i16 | `sinI16` |
| src/fixed_point/math.rs | 29-54 | sin_i16_unchecked | `B`, `N`, `sinLoop`, `sinI16Unchecked` |
| src/float/bit_manipulation.rs | 14-40 | bit_reduce_unchecked | `shiftBackForth`, `bitReduceUnchecked` |
| src/float/bit_manipulation.rs | 43-53 | bit_reduce | `bitReduce` |
| src/float/bit_manipulation.rs | 56-69 | bit_reduce_exp_unchecked | `bitReduceExpUnchecked` |
| src/float/bit_manipulation.rs | 71-77 | bit_reduce_exp | `bitReduceExp` |
| src/float/conversion.rs | 47-55 | ToRawBytes for f32::to_raw_word | `toRawWord` |
| src/float/conversion.rs | 60-62 | FromRawBytes for f32::from_raw_word | `fromRawWord` |
| src/float/conversion.rs | 67-73 | ToF32Components for u32::to_f32_components | `wordToComponents` |
| src/float/conversion.rs | 78-80 | ToF32Components for f32::to_f32_components | `toComponents` |
| src/float/conversion.rs | 86-90 | FromF32Components for u32::from_f32_components | `wordFromComponents` |
| src/float/conversion.rs | 96-98 | FromF32Components for f32::from_f32_components | `fromComponents` |
| src/float/dsp_util.rs | 22-24 | DSPUtility for f32::samples_to_seconds | `samplesToSeconds` |
| src/float/dsp_util.rs | 35-37 | DSPUtility for f32::samples_to_millis | `samplesToMillis` |
| src/float/dsp_util.rs | 48-50 | DSPUtility for f32::seconds_to_samples | `secondsToSamples` |
| src/float/dsp_util.rs | 61-63 | DSPUtility for f32::millis_to_samples | `millisToSamples` |
| src/float/integral.rs | 1-18 | simpsons_rule | `simpsonsRule` |
| src/float/interpolation.rs | 10-12 | lerp_unchecked | `lerpUnchecked` |
| src/float/interpolation.rs | 14-28 | lerp | `lerp` |
| src/float/interpolation.rs | 31-46 | lagrange | `lagrangeTerm`, `lagrangeSum`, `lagrange` |
| src/float/interpolation.rs | 49-81 | lagrange_only_4_elements | `lagrange4` |
| src/float/math.rs | 54-56 | AdditionalF32Ext for f32::sinh | `sinh` |
| src/float/math.rs | 66-68 | AdditionalF32Ext for f32::cosh | `cosh` |
| src/float/math.rs | 87-98 | AdditionalF32Ext for f32::fast_tan | `fastTan` |
| src/float/math.rs | 105-118 | AdditionalF32Ext for f32::tanh | `expApprox`, `tanh` |
| src/float/math.rs | 106-108 | AdditionalF32Ext for f32::exp_approx | `expApprox`, `tanh` |
| src/float/math.rs | 131-138 | AdditionalF32Ext for f32::fixed_point_sin | `normalizedRads`, `fixedPointSin` |
| src/float/math.rs | 151-153 | AdditionalF32Ext for f32::fixed_point_cos | `fixedPointCos` |
| src/float/math.rs | 158-187 | AdditionalF32Ext for f32::lookup_bl_rect | `lookupBlRect` |
| src/float/math.rs | 192-210 | AdditionalF32Ext for f32::lookup_sin | `lookupSin` |
| src/float/math.rs | 213-215 | AdditionalF32Ext for f32::sinc | forwards to `__sinc_f32`, modelled by `sinc` |
| src/float/math.rs | 218-220 | AdditionalF32Ext for f32::si | `si` |
| src/float/math.rs | 225-231 | __sinc_f32 | `sinc` |
| src/memory/memory_slice.rs | 75-80 | Default for MemorySlice::default | `null` |
| src/memory/memory_slice.rs | 83-85 | null | `null` |
| src/memory/memory_slice.rs | 87-89 | null_mut | `null` |
| src/memory/memory_slice.rs | 97-99 | MemorySlice::len | `len` |
| src/memory/memory_slice.rs | 114-131 | MemorySlice::get_sub_slice | `getSubSlice` |
| src/memory/memory_slice.rs | 138-140 | MemorySlice::get_unchecked | `getUnchecked` |
| src/memory/memory_slice.rs | 142-148 | MemorySlice::get | `get` |
| src/memory/memory_slice.rs | 155-157 | MemorySlice::get_wrapped_unchecked | `getWrappedUnchecked` |
| src/memory/memory_slice.rs | 160-166 | MemorySlice::get_wrapped | `getWrapped` |
| src/memory/memory_slice.rs | 168-188 | MemorySlice::get_slice_of_four_wrapped | `getSliceOfFourWrapped` |
| src/memory/memory_slice.rs | 195-200 | MemorySlice::lerp_unchecked | `lerpUnchecked` |
| src/memory/memory_slice.rs | 202-217 | MemorySlice::lerp | `lerp` |
| src/memory/memory_slice.rs | 220-226 | MemorySlice::lerp_wrapped | `lerpWrapped` |
| src/memory/memory_slice.rs | 232-251 | MemorySlice::lagrange_wrapped | `lagrangeWindow`, `lagrangeWrapped` |
| src/memory/memory_slice.rs | 253-260 | MemorySlice::lagrange_four_points_wrapped | `lagrange4`, `lagrangeFourPointsWrapped` |
| src/memory/memory_slice.rs | 271-274 | MemorySlice::change_slice_unchecked | `changeSliceUnchecked` |
| src/memory/memory_slice.rs | 281-283 | MemorySlice::as_slice | `asSlice` |
| src/memory/memory_slice.rs | 299-301 | MemorySlice::assign_unchecked | `assignUnchecked` |
| src/memory/memory_slice.rs | 303-313 | MemorySlice::assign | `assign` |
| src/memory/memory_slice.rs | 324-327 | MemorySlice::change_mut_slice_unchecked | `changeSliceUnchecked` |
| src/memory/memory_slice.rs | 334-336 | MemorySlice::as_slice_mut | `asSlice` |
| src/memory/memory_slice.rs | 343-348 | from_slice_mut | `fromSlice` |
| src/memory/memory_slice.rs | 351-356 | from_slice | `fromSlice` |
| src/memory/mod.rs | 34-36 | NonMutLocation for NonMutable::get | wraps or unwraps the raw pointer; a `MemorySlice` of the model holds the pointer itself |
| src/memory/mod.rs | 37-39 | NonMutLocation for NonMutable::new | wraps or unwraps the raw pointer; a `MemorySlice` of the model holds the pointer itself |
| src/memory/mod.rs | 44-46 | NonMutLocation for Mutable::get | wraps or unwraps the raw pointer; a `MemorySlice` of the model holds the pointer itself |
| src/memory/mod.rs | 48-50 | NonMutLocation for Mutable::new | wraps or unwraps the raw pointer; a `MemorySlice` of the model holds the pointer itself |
| src/memory/mod.rs | 56-58 | MutLocation for Mutable::get_mut | wraps or unwraps the raw pointer; a `MemorySlice` of the model holds the pointer itself |
| src/memory/mod.rs | 60-62 | MutLocation for Mutable::new_mut | wraps or unwraps the raw pointer; a `MemorySlice` of the model holds the pointer itself |
| src/memory/mod.rs | 70-72 | Default for NonMutable::default | wraps or unwraps the raw pointer; a `MemorySlice` of the model holds the pointer itself |
| src/memory/mod.rs | 76-78 | Default for Mutable::default | wraps or unwraps the raw pointer; a `MemorySlice` of the model holds the pointer itself |
| src/oscillator/lookup_tables/mod.rs | 5-18 | sine_table | `minStep`, `tableEntry`, `sineTable` |
| src/oscillator/osc_functional.rs | 23-28 | FunctionalOscillator::new | `new` |
| src/oscillator/osc_functional.rs | 30-37 | FunctionalOscillator::next | `next` |
| src/oscillator/osc_functional.rs | 40-42 | FunctionalOscillator::next_saw | `sawOf` |
| src/oscillator/osc_functional.rs | 45-47 | FunctionalOscillator::next_rect | `rectOf` |
| src/oscillator/osc_functional.rs | 50-52 | FunctionalOscillator::next_sine | `sineOf` |
| src/oscillator/osc_functional.rs | 55-62 | FunctionalOscillator::next_tri | `triOf` |
| src/oscillator/osc_functional.rs | 65-67 | FunctionalOscillator::set_freq_unchecked | `setFreqUnchecked` |
| src/oscillator/osc_functional.rs | 70-72 | FunctionalOscillator::set_phase_shift_unchecked | `setPhaseShiftUnchecked` |
| src/oscillator/osc_functional.rs | 75-77 | FunctionalOscillator::set_wave | `setWave` |
| src/oscillator/osc_functional.rs | 80-82 | FunctionalOscillator::set_sr_unchecked | `setSrUnchecked` |
| src/oscillator/osc_wavetable.rs | 15-17 | WavetableOscillator::new | `new` |
| src/oscillator/osc_wavetable.rs | 19-28 | WavetableOscillator::next | `next` |
| src/oscillator/osc_wavetable.rs | 31-33 | WavetableOscillator::set_freq_unchecked | `setFreqUnchecked` |
| src/oscillator/osc_wavetable.rs | 36-38 | WavetableOscillator::set_phase_shift_unchecked | `setPhaseShiftUnchecked` |
| src/oscillator/osc_wavetable.rs | 41-43 | WavetableOscillator::set_sr_unchecked | `setSrUnchecked` |
| src/oscillator/phase_accumulator.rs | 16-23 | PhaseAccumulator for SoftPhaseAccumulator::new | `new` |
| src/oscillator/phase_accumulator.rs | 26-28 | PhaseAccumulator for SoftPhaseAccumulator::set_sr_unchecked | `setSrUnchecked` |
| src/oscillator/phase_accumulator.rs | 31-33 | PhaseAccumulator for SoftPhaseAccumulator::set_freq_unchecked | `setFreqUnchecked` |
| src/oscillator/phase_accumulator.rs | 36-38 | PhaseAccumulator for SoftPhaseAccumulator::set_phase_shift | `setPhaseShift` |
| src/oscillator/phase_accumulator.rs | 41-44 | PhaseAccumulator for SoftPhaseAccumulator::next_value | `nextValue` |
| src/oscillator/phase_accumulator.rs | 47-50 | PhaseAccumulator for SoftPhaseAccumulator::next_value_normalized | `nextValueNormalized` |
| src/oscillator/phase_accumulator.rs | 69-73 | SoftPhaseAccumulator::tick | `tick` |
| src/oscillator/phase_accumulator.rs | 75-85 | SoftPhaseAccumulator::set_freq | `setFreq` |
| src/stereo.rs | 13-23 | check_pan_error | `checkPanError` |
| src/stereo.rs | 29-31 | stereo_pan | `stereoPan` |
| src/stereo.rs | 33-35 | mono_pan | `monoPan` |
| src/stereo.rs | 42-45 | stereo_pan_unchecked | `stereoPanUnchecked` |
| src/stereo.rs | 48-51 | mono_pan_unchecked | `monoPanUnchecked` |
| src/stereo.rs | 54-57 | crossfade_correlated_unchecked | `crossfadeCorrelatedUnchecked` |
| src/stereo.rs | 60-62 | equal_amplitude_pan_unchecked | `equalAmplitudePan` |
| src/stereo.rs | 65-68 | equal_power_pan_unchecked | `equalPowerPan` |

154 functions; `src/oscillator/lookup_tables/bl_rect.rs` (a table of 5075 numbers) is `Model/BlRectTable.lean`.

## Axioms of each theorem

From `#print axioms` on every theorem of the manifest.

* **none** (1 theorems): `C113_as_slice`

* **Quot.sound, propext** (3 theorems): `C03_wrapAt_spec`, `C45_class_refuted`, `C204_biquad_causal`

* **propext** (8 theorems): `C01_assign_out`, `C05_sub_slice_inside_refuted`, `C14_null_slice`, `C40_oversized_refuted`, `C44_over`, `C64_zero_step`, `C121_actual`, `C152_slice`

* **Classical.choice, Quot.sound, propext** (594 theorems): `C01_get`, `C01_assign_in`, `C113_from_slice`, `C113_from_slice_mut`, `C02_read_your_writes`, `C03_get_wrapped`, `C03_empty_panics`, `C04_four_wrapped_partial`, `C04_four_wrapped_refuted`, `C05_sub_slice_inside_partial`, `C05_sub_slice_inside_actual`, `C06_windows_partial`, `C06_windows_refuted`, `C07_lerp_safe`, `C08_whole_index_partial`, `C08_last_index_partial`, `C08_whole_index_refuted`, `C09_negative`, `C09_beyond`, `C09_inside`, `C10_lerp_wrapped_inside`, `C10_lerp_wrapped`, `C10_lerp_wrapped_whole`, `C11_through_samples_partial`, `C11_through_samples_actual`, `C11_near_actual`, `C11_through_samples_refuted`, `C12_lagrange_wrapped_inside`, `C12_lagrange_wrapped`, `C13_four_points_partial`, `C13_four_points_actual`, `C13_position_actual`, `C13_cubic_actual`, `C13_four_points_refuted`, `C14_null_slice_interpolated`, `C15_delay_exactly`, `C16_stays_inside_partial`, `C16_stays_inside_refuted`, `C16_not_inside`, `C16_actual`, `C17_read_wrapped_at`, `C17_recent`, `C18_lerp_read_whole`, `C19_lagrange_read_partial`, `C19_near_actual`, `C19_lagrange_read_refuted`, `C20_comb`, `C21_comb_bounded`, `C22_comb_stable`, `C23_comb_echo`, `C23_comb_impulse`, `C24_all_pass`, `C24_difference_equation`, `C25_all_pass_bounded`, `C26_all_pass_energy_refuted`, `C26_dc_gain_partial`, `C137_all_pass`, `C137_all_pass_range`, `C27_difference_equation`, `C28_linear`, `C28_time_invariant`, `C29_nan_poison`, `C30_zero_coeffs`, `C30_zero_input`, `C31_lowpass`, `C31_lowpass_measured`, `C32_highpass`, `C32_highpass_measured`, `C33_allpass`, `C33_allpass_everywhere`, `C34_notch`, `C35_stable`, `C35_decays`, `C36_bell`, `C36_low_shelf`, `C37_low_shelf`, `C37_bell`, `C38_float_word_float`, `C38_word_float_word`, `C39_word_round_trip`, `C39_float_round_trip`, `C39_components_round_trip`, `C40_components_value`, `C40_oversized_actual`, `C40_oversized_float`, `C41_bit_reduce`, `C42_error`, `C42_idempotent`, `C42_odd`, `C42_monotone`, `C43_errors_partial`, `C43_nan_actual`, `C43_nan_refuted`, `C44_bits`, `C44_shrinks`, `C44_relative_error`, `C45_class_partial`, `C46_errors`, `C47_nan_refuted`, `C47_number_partial`, `C47_nan_actual`, `C48_endpoints`, `C49_lerp`, `C49_between`, `C50_polynomial`, `C50_nodes`, `C51_panics`, `C51_panics_small`, `C51_value`, `C52_four`, `C53_exact`, `C53_seconds`, `C53_millis`, `C54_simpson_refuted`, `C54_simpson_actual`, `C54_affine_actual`, `C54_small_panics`, `C55_accurate`, `C55_odd_increasing`, `C56_exact_partial`, `C56_shape_actual`, `C56_monotone_refuted`, `C56_float_partial`, `C56_overflow_actual`, `FMath.C56_far_actual`, `FMath.C56_bounded_actual`, `C56_bounded_refuted`, `C57_exact`, `C57_real`, `C57_cosh_even`, `C57_sinh_odd_partial`, `C57_sinh_zero_actual`, `C57_sinh_odd_refuted`, `C58_sin`, `C58_unchecked_panics`, `C59_accurate`, `C60_range_partial`, `C60_unit_refuted`, `C60_cos_partial`, `C60_cos_refuted`, `C61_lookup_sin`, `C61_lookup`, `C62_in_table_refuted`, `C62_in_table_partial`, `C63_outside`, `C63_range`, `C63_symmetry`, `C64_table`, `C65_phase`, `C65_same_advance`, `C66_counter`, `C66_output`, `C66_setters`, `C67_refuted`, `C67_partial`, `C67_actual_reached`, `C68_range`, `C69_refuted`, `C69_partial`, `C69_actual`, `C70_saw`, `C70_tri`, `C70_saw_mono`, `C70_tri_mono`, `C71_refuted`, `C71_partial`, `C71_actual`, `C71_actual_reached`, `C72_refuted`, `C72_partial`, `C72_actual`, `C73_step`, `C73_saturation`, `C74_pan`, `C75_gains`, `C75_monotone`, `C75_exact`, `C76_swap`, `C76_extremes_refuted`, `C76_extremes_partial`, `C76_checked`, `C76_checked_extremes`, `C77_power`, `C77_energy`, `C78_clip`, `C78_monotone`, `C79_refuted`, `C79_partial`, `C79_actual`, `C80_refuted`, `C80_partial`, `C81_inverse`, `C81_increasing`, `C82_refuted`, `C82_partial`, `C82_actual`, `C82_saturating_actual`, `C82_nan_actual`, `C83_state_graph`, `C84_refuted`, `C84_partial`, `C84_cycle_partial`, `C84_actual`, `C85_idle_silent`, `C85_reset_silent`, `C85_sustain_holds`, `C86_refuted`, `C86_partial`, `C86_actual`, `C87_refuted`, `C87_partial`, `C87_actual`, `C88_refuted`, `C88_partial`, `C88_actual`, `C89_refuted`, `C89_partial`, `C89_actual`, `C106_new`, `C106_set`, `C90_refuted`, `C90_partial`, `C91_new_panics`, `C91_calls_panic`, `C92_sin`, `C93_cos`, `C94_refuted`, `C94_partial`, `C94_actual`, `C95_sine_oscillator`, `C96_state`, `C96_output`, `C97_refuted`, `C97_partial`, `C97_actual`, `C98_state`, `C98_fault`, `C99_modulated`, `C99_stable`, `C100_delay`, `C100_comb`, `C100_all_pass`, `C101_refuted`, `C101_partial`, `C101_actual`, `C102_stays`, `C102_confined`, `C103_attack`, `C103_attack_end`, `C103_decay`, `C103_release`, `C103_cycle`, `C104_attack`, `C104_decay`, `C104_release`, `C105_attack`, `C105_decay`, `C105_release`, `C106_attack_only`, `C106_decay_only`, `C106_release_only`, `C106_sustain_only`, `C107_cutoff`, `C108_sinusoid`, `C108_lowpass`, `C109_bounded`, `C110_refuted`, `C110_partial`, `C110_actual`, `C111_refuted`, `C111_actual`, `C112_exact`, `C112_float`, `C112_ends`, `C112_swap`, `C113_change_slice`, `C114_bounded`, `C114_fine`, `C115_tracks`, `C116_stable`, `C116_down`, `C116_low`, `C116_bell_cut`, `C116_low_shelf_cut`, `C117_fast_tan`, `C118_never_blows_up`, `C118_bass`, `C119_independent`, `C120_refuted`, `C120_actual`, `C120_partial`, `C121_refuted`, `C121_partial`, `C122_bounded`, `C123_refuted`, `C123_actual`, `C123_partial`, `C124_all_pass_silent`, `C125_comb`, `C125_all_pass`, `C126_constant_refuted`, `C126_range_refuted`, `C126_monotone_refuted`, `C126_refuted`, `C126_exact_partial`, `C126_partial`, `C126_near_partial`, `C127_comb_linear`, `C127_all_pass_linear`, `C127_comb_time_invariant`, `C127_all_pass_time_invariant`, `C128_refuted`, `C128_actual`, `C128_pitch_actual`, `C128_partial`, `C129_bit_reduce`, `C129_bit_reduce_exp`, `C130_gains`, `C130_power`, `C131_circle`, `C132_refuted`, `C132_actual`, `C132_partial`, `C133_accuracy`, `C133_overshoot`, `C134_monotone`, `C134_slope`, `C134_peak`, `C135_notch_range`, `C135_notch_width`, `C135_bell_range`, `C135_bell_slopes`, `C136_refuted`, `C136_actual`, `C136_partial`, `C136_monotone_partial`, `C137_comb`, `C137_comb_range`, `C137_comb_constant`, `FMath.C138_exact`, `FMath.C138_exact_abs`, `FMath.C138_float`, `C139_voice`, `C139_silence`, `C140_zeros`, `C141_dc`, `C141_off`, `C142_network`, `C143_reverb`, `FMath.C144_table`, `FMath.C145_lookup`, `C146_waveform`, `C146_sine`, `C147_notch`, `C147_allpass`, `C147_bell`, `C148_lowpass`, `C148_highpass`, `C148_chain`, `C149_crossover`, `C149_second_order`, `C150_phase`, `C150_functional`, `C150_wavetable`, `C151_sawtooth`, `C151_triangle`, `C151_sine`, `C151_rectangle`, `C152_interpolated`, `C152_delay`, `C152_functions`, `C152_bits`, `C152_oscillators`, `C152_network`, `C152_voice`, `C153_refuted`, `C153_slice_partial`, `C153_interpolated_partial`, `C153_delay_partial`, `C153_network_partial`, `C153_voice_partial`, `C153_tables_partial`, `C154_readers`, `C154_biquad`, `C154_network`, `C154_level`, `C154_wavetable`, `C155_bounded`, `C155_tracks`, `C155_margin`, `C156_never_blows_up`, `C156_chain`, `C156_bass`, `C156_bass_chain`, `C157_panics`, `C157_zero`, `C157_bit_reduce`, `C157_bit_reduce_exp`, `C158_counter`, `C158_output`, `C159_refuted`, `C159_partial`, `C159_actual`, `C160_design_exact`, `C160_design_float`, `C160_phase`, `C160_oscillator`, `C160_wavetable`, `C160_envelope`, `C161_compiles`, `C161_fails`, `C162_response`, `C162_corner`, `C163_biquad`, `C163_network`, `C163_needed`, `C164_refuted`, `C164_partial`, `C164_step_partial`, `C164_odd`, `C165_sawtooth`, `C165_triangle`, `C165_sine`, `C165_rectangle`, `C166_frequency`, `C166_rate`, `C166_distinct`, `C167_refuted`, `C167_partial`, `C167_stuck`, `C167_recovers`, `C167_forgets`, `C167_forgets_float`, `C168_decibels`, `C168_ratio`, `C168_there_and_back`, `C168_back_and_there`, `C169_attack`, `C169_decay`, `C169_release`, `C170_cutoff`, `C170_resonant`, `C170_q`, `C170_fast_tan`, `C170_floats`, `C171_refuted`, `C171_partial`, `C172_order`, `C172_feedback`, `C173_sawtooth`, `C173_triangle`, `C173_rectangle`, `C173_sine`, `C173_distortion`, `C174_overshoot`, `C174_no_overshoot`, `C174_highpass`, `C175_echo`, `C175_reverberation_time`, `C176_refuted`, `C176_partial`, `C176_actual`, `C177_fades`, `C177_allpass`, `C177_allpass_total`, `C177_split`, `C177_split_total`, `C177_notch`, `C177_bell_boost`, `C177_bell_cut`, `C177_bell_below_one`, `C177_bell_cut_below_one`, `C177_low_shelf_boost`, `C177_low_shelf_cut`, `C177_resonance`, `C178_refuted`, `C178_partial`, `C178_free`, `C179_exact`, `C179_forgets`, `C179_designs`, `C179_float`, `C179_float_designs`, `C180_comb`, `C180_all_pass`, `C181_signal`, `C181_doppler`, `C182_phase`, `C182_sinusoid`, `C182_float`, `C183_refuted`, `C183_actual`, `C183_partial`, `C184_rings`, `C184_time`, `C184_pitch`, `C184_any`, `C184_float`, `C185_range`, `C185_strength`, `C185_bound`, `C185_dampening`, `C185_partials`, `C185_partials_odd`, `C186_comb`, `C186_partials`, `C186_all_pass`, `C187_biquad`, `C187_comb`, `C187_all_pass`, `C187_biquad_float`, `C187_comb_float`, `C187_all_pass_float`, `C187_voice`, `C188_cosh`, `C188_sinh`, `C188_identity`, `C189_clip`, `C189_crossfade`, `C189_pan`, `C189_power`, `C190_seconds`, `C190_millis`, `C190_monotone`, `C191_step`, `C191_first`, `C191_jump`, `C192_refuted`, `C192_never`, `C192_limit`, `C192_even`, `C192_odd`, `C192_odd_near`, `C192_sharp`, `C193_bounded`, `C193_silent`, `C194_refuted`, `C194_folds`, `C194_sine`, `C194_triangle`, `C194_stuck`, `C195_refuted`, `C195_doubles`, `C195_never`, `C196_refuted`, `C196_ceiling`, `C196_near`, `C196_below`, `C196_acts`, `C196_only`, `C197_synth`, `C197_silence`, `C198_filters`, `C198_equalisers`, `C198_time`, `C198_comb`, `C198_all_pass`, `C199_any_order`, `C199_rack`, `C200_convolution`, `C200_determines`, `C200_peak`, `C201_refuted`, `C201_partial`, `C201_actual`, `C201_remedy`, `C201_handle`, `C201_fill`, `C202_settings`, `C202_bell`, `C202_flat`, `C202_comb`, `C202_comb_flat`, `C203_lossless`, `C203_needed`, `C203_designs`, `C203_undo`, `C203_float_loses`, `C204_effect_causal`, `C204_chain`, `C204_exactly`, `C205_freeze`, `C205_infinite_state`, `C205_kept`, `C205_unbounded`, `C205_never_dies`, `C206_exact`, `C206_float`, `C206_delay`, `C207_mono_pan`, `C207_stereo_pan`, `C207_hump`, `C207_moves`, `C207_float`

