#!/usr/bin/env python3
"""Writes /verif/properties.jsonl. Edit here, then re-run."""
import json
P=[]
def p(title, statement, quantifier, why, anchors):
    P.append(dict(id="C%02d"%(len(P)+1), title=title, statement=statement, quantifier=quantifier, why_tests_cant=why, anchors=anchors))
MS="src/memory/memory_slice.rs"; DL="src/delay_line.rs"; CB="src/comb.rs"; AP="src/all_pass.rs"
BQ="src/biquad/mod.rs"; BW="src/biquad/butterworth.rs"; CV="src/float/conversion.rs"; BM="src/float/bit_manipulation.rs"
IP="src/float/interpolation.rs"; FM="src/float/math.rs"; FI="src/float/integral.rs"; DU="src/float/dsp_util.rs"
FX="src/fixed_point/math.rs"; LT="src/oscillator/lookup_tables/mod.rs"; BL="src/oscillator/lookup_tables/bl_rect.rs"
PA="src/oscillator/phase_accumulator.rs"; OF="src/oscillator/osc_functional.rs"; OW="src/oscillator/osc_wavetable.rs"
ST="src/stereo.rs"; CL="src/clipping.rs"; DB="src/decibels.rs"; EN="src/envelope.rs"

# ---- MemorySlice
p("Checked element access is safe and exact",
  "On a MemorySlice made from a live buffer, get(i) and assign(i,v) never perform an out-of-bounds access and never panic. get(i) is Ok(buffer[i]) exactly when i < len() and Err(IndexOutOfBound) otherwise; assign(i,v) is Ok and changes exactly cell i to v when i < len(), and is Err(IndexOutOfBound) leaving all memory unchanged otherwise.",
  "every memory, every slice inside it, every usize index, every value",
  "needs every length/index pair, including indices near usize::MAX",
  [MS+":get",MS+":assign",MS+":get_unchecked",MS+":assign_unchecked"])
p("Reads see the latest write through any alias",
  "After any sequence of checked assigns through any number of copies / overlapping sub-slices of one buffer, get through any handle returns the value of the last successful assign to that buffer cell, or its initial contents if there was none.",
  "every initial buffer, every set of aliasing handles, every history of assigns",
  "quantifies over unbounded histories and aliasing patterns",
  [MS+":assign",MS+":get",MS+":get_sub_slice",MS+":from_slice_mut"])
p("get_wrapped is indexing modulo the length",
  "On a live non-empty slice get_wrapped(i) returns buffer[i mod len] (Euclidean) for every isize i: it is periodic with period len, agrees with get on 0..len, and never panics or leaves the buffer. On an empty slice it panics and never reads.",
  "every non-empty slice and every isize index, negative and extreme ones included",
  "infinite length/index combinations, extreme isize values",
  [MS+":get_wrapped",MS+":get_wrapped_unchecked"])
p("get_slice_of_four_wrapped returns four consecutive wrapped samples",
  "On a live non-empty slice get_slice_of_four_wrapped(i) returns [buffer[i], buffer[i+1], buffer[i+2], buffer[i+3]] with all indices modulo len, for every isize i, and never reads outside the buffer.",
  "every non-empty slice (also shorter than 4) and every isize index",
  "the failing indices (isize overflow of index + 3 in a release build) are at the edge of a 2^64 range",
  [MS+":get_slice_of_four_wrapped"])
p("A sub-slice never escapes its parent",
  "If get_sub_slice(offset, n) succeeds on a live slice, the result has length n, lies wholly inside the parent, and its element i is the parent's element offset + i.",
  "every parent slice, every usize offset and length, both overflow-check settings",
  "the escaping arguments need usize overflow",
  [MS+":get_sub_slice"])
p("Every window inside a slice can be taken as a sub-slice",
  "get_sub_slice(offset, n) succeeds for every window with offset < len and offset + n <= len; it fails with IndexOutOfBound for offset >= len and with LengthOutOfBound for windows that overrun.",
  "every parent slice, every offset and length",
  "must hold at the boundary for every length",
  [MS+":get_sub_slice"])
p("Checked interpolated read is memory safe for every float",
  "MemorySlice::lerp(x) on a live slice never reads outside the slice, for every f32 x including NaN, infinities, negative zero and values past 2^24; for a non-empty slice it also never panics.",
  "every slice length, every one of the 2^32 f32 bit patterns, both usize widths and overflow-check settings",
  "rounding of usize to f32 near the end of big buffers cannot be covered by samples",
  [MS+":lerp"])
p("Checked interpolated read at a whole index is the stored sample",
  "lerp(i as f32) returns the sample stored at i for every valid index i < len, the last one included.",
  "every length up to 2^24 and every index, every finite buffer contents",
  "depends on float rounding of len - 1 + 10*EPSILON for every length",
  [MS+":lerp",IP+":lerp_unchecked"])
p("Checked interpolated read rejects out-of-range positions",
  "lerp(x) is Err(IndexOutOfBound) for every x < 0 and for every x > len - 1 (and for +infinity), and Ok for every 0 <= x < len - 1.",
  "every slice length up to 2^24 and every non-NaN f32 position",
  "boundary of a float comparison for every length",
  [MS+":lerp"])
p("lerp_wrapped interpolates circularly",
  "On a live non-empty slice, lerp_wrapped(x) reads only inside the buffer, blends buffer[floor x mod len] and buffer[(floor x + 1) mod len], and equals get_wrapped(i) when x is the whole number i.",
  "every non-empty slice with finite samples, every f32 position in the exactly representable integer range",
  "all lengths, positions and wrap-arounds",
  [MS+":lerp_wrapped",IP+":lerp_unchecked"])
p("lagrange_wrapped passes through the stored samples",
  "lagrange_wrapped(x, window) at a whole position x = i returns the sample buffer[i mod len].",
  "every non-empty buffer, every window size, every whole position",
  "an off-by-one between window origin and evaluation point is invisible to finiteness tests",
  [MS+":lagrange_wrapped",IP+":lagrange"])
p("lagrange_wrapped stays in the buffer and does not panic",
  "On a live non-empty slice lagrange_wrapped(x, window) never reads outside the buffer and never panics, for every finite moderate x and every window size >= 2.",
  "every non-empty slice, every window size, every position with |x| < 2^23",
  "loops over window sizes; asserts on float comparison",
  [MS+":lagrange_wrapped",IP+":lagrange"])
p("lagrange_four_points_wrapped interpolates between neighbours of the position",
  "lagrange_four_points_wrapped(x) evaluates the cubic through the four wrapped samples starting at floor(x) at the fractional part of x; in particular at a whole position i it returns buffer[i mod len].",
  "every non-empty buffer and every position",
  "only positions below 1.0 behave; sampling near 0 hides it",
  [MS+":lagrange_four_points_wrapped",IP+":lagrange_only_4_elements"])
p("null slices never serve data",
  "A slice from null()/null_mut()/Default has length 0: get and assign on it return IndexOutOfBound for every index, get_sub_slice fails for every argument, and no checked access touches memory.",
  "every index, offset, length and value",
  "all indices",
  [MS+":null",MS+":null_mut",MS+":default"])
# ---- DelayLine
p("A delay line delays by exactly its length",
  "For a delay line on a live buffer of length L >= 1, reading and then writing each sample returns, at step n, the sample written at step n - L (the initial buffer contents for n < L), bit for bit.",
  "every L >= 1, every initial buffer, every input sequence of any length",
  "unbounded histories and lengths",
  [DL+":read",DL+":write_and_advance"])
p("A delay line never leaves its buffer",
  "Any history of read, write_and_advance, advance, read_wrapped_at and change_buffer calls on live non-empty buffers never reads or writes outside the current buffer and never panics.",
  "every history of API calls, every buffer length",
  "needs histories that swap in a shorter buffer at the wrong moment",
  [DL+":write_and_advance",DL+":advance",DL+":read",DL+":change_buffer"])
p("read_wrapped_at(-k) is the sample written k steps ago",
  "After any history of writes, read_wrapped_at(-k) returns the k-th most recent written sample for 1 <= k <= min(L, number of writes); more generally read_wrapped_at(d) is the cell d steps after the cursor modulo L.",
  "every L, every history, every offset whose sum with the cursor is an isize",
  "unbounded histories",
  [DL+":read_wrapped_at"])
p("Interpolated delay reads agree with whole reads",
  "read_lerp_wrapped_at(d as f32) equals read_wrapped_at(d) for every whole offset d, whenever cursor and offset are exactly representable and the samples are finite.",
  "every buffer length below 2^23, every history, every whole offset below 2^23",
  "all positions including wrap-around",
  [DL+":read_lerp_wrapped_at"])
p("Lagrange delay reads agree with whole reads",
  "read_lagrange_wrapped_at(d as f32) returns the sample that read_wrapped_at(d) returns for whole d.",
  "every history and whole offset",
  "the window is filled by a loop whose origin is misaligned for every buffer",
  [DL+":read_lagrange_wrapped_at",MS+":lagrange_wrapped"])
# ---- Comb / AllPass
p("Comb output is its own input path delayed by the buffer length",
  "Comb::tick returns at step n, bit for bit, the value computed and stored at step n - L: input[n-L] + filter_state[n-L]*feedback, with filter_state the one-pole low-pass of the outputs; the first L outputs are the initial buffer.",
  "every buffer length >= 1, every input sequence, every feedback/dampening setting, every n",
  "unbounded histories",
  [CB+":tick",CB+":new",DL+":write_and_advance"])
p("Comb with default settings is bounded in float arithmetic",
  "With the constructor's settings and a zeroed buffer, if every input satisfies |x| <= M (M finite with 2M not overflowing) then every output is finite and |y| <= 2M, forever, in IEEE single precision with rounding.",
  "every buffer length, every bounded input sequence, every number of ticks",
  "infinite-horizon stability with rounding",
  [CB+":tick",CB+":new"])
p("Comb is bounded for every stable setting",
  "In exact arithmetic, for every dampening in [0,1] and |feedback| < 1, inputs bounded by M give outputs bounded by M/(1-|feedback|) forever from a zeroed buffer.",
  "every dampening, feedback, buffer length, bounded input sequence and time",
  "infinite horizon, continuous parameters",
  [CB+":tick",CB+":set_dampening",CB+":set_feedback"])
p("Comb without dampening is a geometric echo",
  "With dampening 0, in exact arithmetic, y[n] = x[n-L] + feedback*y[n-L]; an impulse produces echoes feedback^k at times (k+1)L and zero elsewhere.",
  "every feedback, buffer length, input and time",
  "unbounded time",
  [CB+":tick",CB+":set_dampening"])
p("AllPass obeys its difference equation",
  "AllPass::tick returns at step n exactly -input[n] + w[n-L], where w[n] = input[n] + 0.5*w[n-L] is the stored value (initial buffer for n < L), bit for bit in float arithmetic; in exact arithmetic y[n] - y[n-L]/2 = -x[n] + (3/2)x[n-L].",
  "every buffer length, initial contents, input sequence and time",
  "unbounded histories",
  [AP+":tick"])
p("AllPass output is bounded in float arithmetic",
  "From a zeroed buffer, inputs with |x| <= M (3M not overflowing) give finite outputs with |y| <= 3M (rounded), forever, with IEEE rounding.",
  "every buffer length, bounded input and time",
  "infinite horizon with rounding",
  [AP+":tick"])
p("AllPass has unit gain at every frequency",
  "The AllPass filter preserves the energy of a unit impulse (its magnitude response is 1 at all frequencies), as an all-pass filter must.",
  "every buffer length; infinite impulse response",
  "needs the whole infinite response",
  [AP+":tick"])
# ---- Biquad
p("Biquad::process realises the second-order difference equation",
  "In exact arithmetic, from a new Biquad with fixed coefficients the outputs satisfy y[n] = b0 x[n] + b1 x[n-1] + b2 x[n-2] - a1 y[n-1] - a2 y[n-2] for all n (terms before the start are zero).",
  "every coefficient set, every input sequence, every n",
  "unbounded sequences",
  [BQ+":process",BQ+":new"])
p("Biquad is linear and time invariant",
  "In exact arithmetic the response to c*x + d*u is c*y + d*v, and delaying the input by k samples delays the output by k samples.",
  "every coefficient set, inputs, scalars, delays",
  "unbounded sequences",
  [BQ+":process"])
p("A NaN input poisons a biquad forever",
  "Once a NaN sample has been processed (or a coefficient b0 is NaN), every later output is NaN, whatever the later inputs and coefficients; only constructing a new Biquad recovers.",
  "every float coefficient set, every later history including coefficient updates",
  "unbounded later histories",
  [BQ+":process"])
p("A fresh biquad with zero coefficients is silent",
  "Biquad::new(BiquadCoeffs::new()) outputs zero for every finite input sequence, and any biquad with finite coefficients outputs zero for zero input from rest.",
  "every finite float input sequence",
  "all inputs, unbounded time, signed zeros",
  [BQ+":process",BW+":new"])
p("Low-pass has unit DC gain and blocks Nyquist",
  "For every fc, q, sr with non-degenerate denominators, lowpass coefficients give, in exact arithmetic, gain exactly 1 at DC and exactly 0 at Nyquist.",
  "every parameter triple",
  "continuous parameter space",
  [BW+":lowpass"])
p("High-pass blocks DC and has unit Nyquist gain",
  "For every fc, q, sr with non-degenerate denominators, highpass coefficients give, in exact arithmetic, gain exactly 0 at DC and exactly 1 at Nyquist.",
  "every parameter triple",
  "continuous parameter space",
  [BW+":highpass"])
p("Biquad all-pass has unit magnitude everywhere",
  "The allpass coefficients give |H(e^{jw})| = 1 for every real frequency w, in exact arithmetic.",
  "every parameter triple and every frequency",
  "continuous parameters and frequency",
  [BW+":allpass"])
p("Notch passes DC and Nyquist and kills its centre",
  "The notch coefficients give gain 1 at DC and Nyquist and gain 0 at the frequency w with cos w = (1-k^2)/(1+k^2), in exact arithmetic.",
  "every parameter triple",
  "continuous parameters",
  [BW+":notch"])
p("Filter designs are stable",
  "For every fc with 0 < pi*fc/sr and q > 0, the lowpass, highpass, allpass, notch and boost designs have both poles strictly inside the unit circle, in exact arithmetic; so their free response decays to zero.",
  "every positive parameter triple; all time",
  "continuous parameters, infinite horizon",
  [BW+":lowpass",BW+":highpass",BW+":allpass",BW+":notch",BW+":bell_boost_only",BW+":low_shelf_boost_only"])
p("Bell cut undoes bell boost",
  "For every gain g > 0, filtering with bell(+g) and then with bell(-g) from rest reproduces the input exactly, in exact arithmetic; the same for low_shelf.",
  "every parameter set and every input sequence",
  "unbounded inputs, continuous parameters",
  [BW+":bell",BW+":bell_boost_only",BW+":bell_cut_only",BW+":low_shelf"])
p("Shelf and bell gains at the band edges",
  "low_shelf(+g) has gain g at DC and 1 at Nyquist; bell(+g) has gain 1 at DC and Nyquist and g at its centre frequency, in exact arithmetic.",
  "every parameter set",
  "continuous parameters",
  [BW+":low_shelf_boost_only",BW+":bell_boost_only"])
# ---- conversions
p("Raw word conversion is a bit-exact bijection",
  "from_raw_word(x.to_raw_word()) is x bit for bit for every f32, and from_raw_word(w).to_raw_word() = w for every u32 w; the byte loop never overflows.",
  "all 2^32 bit patterns",
  "exhaustive over NaN payloads and subnormals",
  [CV+":to_raw_word",CV+":from_raw_word"])
p("Component conversion round-trips",
  "from_f32_components(x.to_f32_components()) = x for every f32/u32 bit pattern, and to(from(c)) = c for every c whose mantissa fits 23 bits.",
  "all bit patterns and all component triples",
  "exhaustive",
  [CV+":to_f32_components",CV+":from_f32_components"])
p("Components denote the IEEE value",
  "For every finite f32 the components satisfy value = (-1)^sign * (1.mantissa or 0.mantissa) * 2^(exponent-127 or -126); an oversized mantissa is rejected or leaves the other fields unchanged.",
  "all finite bit patterns; all component triples",
  "exhaustive",
  [CV+":to_f32_components",CV+":from_f32_components"])
p("bit_reduce truncates toward zero onto a power-of-two grid",
  "For bit_depth d <= 30 and |x| <= 1, bit_reduce(x,d) = Ok(r) where r has the sign of x and |r| is the largest multiple of 2^(d-31) that is <= |x| (r = x when d = 0), with no rounding error.",
  "every d, every f32 in [-1,1]",
  "2^30 inputs times 31 depths, exact rounding",
  [BM+":bit_reduce",BM+":bit_reduce_unchecked"])
p("bit_reduce is idempotent, odd, monotone and never amplifies",
  "On accepted arguments bit_reduce(bit_reduce(x,d),d) = bit_reduce(x,d), bit_reduce(-x,d) = -bit_reduce(x,d), x <= y implies bit_reduce(x,d) <= bit_reduce(y,d), |bit_reduce(x,d)| <= |x| and the error is below 2^(d-31).",
  "every d, every pair of f32 in [-1,1]",
  "pairs of 2^30 values",
  [BM+":bit_reduce"])
p("bit_reduce reports exactly the documented errors",
  "bit_reduce(x,d) is Err(OverBitReduction) iff d > 30, else Err(InputExceedsRange) iff x < -1 or x > 1, else Ok; it never panics. A NaN input is not silently turned into a number.",
  "every f32 and u8",
  "all NaNs and depths",
  [BM+":bit_reduce"])
p("bit_reduce_exp clears low mantissa bits only",
  "For d <= 23 bit_reduce_exp(x,d) = Ok(r) where r has the sign and exponent fields of x and the mantissa of x with the low d bits cleared; |r| <= |x|, idempotent, relative error below 2^(d-23) for normal x; d > 23 is Err(OverBitReduction).",
  "every f32 bit pattern, every u8",
  "exhaustive",
  [BM+":bit_reduce_exp",BM+":bit_reduce_exp_unchecked"])
p("bit_reduce_exp keeps the class of its input",
  "bit_reduce_exp maps NaN to NaN, infinities to themselves and finite values to finite values.",
  "every f32 bit pattern, every accepted depth",
  "NaN payload patterns",
  [BM+":bit_reduce_exp"])
# ---- interpolation
p("lerp classifies bad arguments",
  "lerp(a,b,t) is Err(InputNaN) iff a or b is NaN, else Err(InputInfinite) iff a or b is infinite, else Err(InterpolationRange) iff t is outside [0,1]; otherwise Ok.",
  "every triple of f32 bit patterns",
  "2^96 triples",
  [IP+":lerp"])
p("lerp returns a number whenever it returns Ok",
  "If lerp(a,b,t) is Ok(r) then r is not NaN.",
  "every triple of f32 bit patterns",
  "2^96 triples",
  [IP+":lerp"])
p("lerp hits its endpoints exactly",
  "For finite a and b, lerp(a,b,0) = a and lerp(a,b,1) = b as float values.",
  "every pair of finite f32",
  "2^64 pairs",
  [IP+":lerp",IP+":lerp_unchecked"])
p("lerp stays within rounding of the segment",
  "For finite a, b and t in [0,1], lerp(a,b,t) is finite and differs from the exact (1-t)a + tb by at most a few rounding errors of max(|a|,|b|); in exact arithmetic it lies between a and b.",
  "every finite a, b, every t in [0,1]",
  "2^96 triples",
  [IP+":lerp",IP+":lerp_unchecked"])
p("lagrange reproduces polynomials",
  "In exact arithmetic lagrange(ys, x) equals p(x) for every polynomial p of degree < n sampled at 0..n-1; in particular it returns ys[i] at x = i.",
  "every n >= 1, every sample vector, every x <= n-1",
  "all degrees and inputs",
  [IP+":lagrange"])
p("lagrange panics exactly on x beyond the last node",
  "lagrange(ys,x) on non-empty ys panics iff x is NaN or x > n-1 (as f32), and never otherwise, in float arithmetic.",
  "every non-empty slice up to 2^24, every f32 x",
  "all inputs",
  [IP+":lagrange"])
p("The four-point kernel equals the general one bit for bit",
  "lagrange_only_4_elements([a,b,c,d], x) returns bit for bit the same f32 as lagrange(&[a,b,c,d], x) for every x <= 3.",
  "every 5-tuple of f32 bit patterns",
  "2^160 tuples",
  [IP+":lagrange_only_4_elements",IP+":lagrange"])
# ---- misc float
p("Sample/time conversions are mutually inverse",
  "seconds_to_samples then samples_to_seconds (and the millisecond pair) returns the argument exactly in exact arithmetic, and within relative error 2^-22 (2^-21 for milliseconds) in float arithmetic when no overflow or underflow occurs.",
  "every normal f32 argument and sample rate",
  "2^64 pairs",
  [DU+":samples_to_seconds",DU+":seconds_to_samples",DU+":samples_to_millis",DU+":millis_to_samples"])
p("Simpson integration is exact on low-degree polynomials",
  "simpsons_rule::<N>(f,a,b) with N even returns exactly the integral for constant (and up to cubic) f, in exact arithmetic; so si() approximates the sine integral.",
  "every even N >= 4, every interval, every cubic",
  "all N, a, b",
  [FI+":simpsons_rule",FM+":si"])
p("fast_tan is accurate on [0,1]",
  "In exact arithmetic fast_tan(x) <= tan(x) and tan(x) - fast_tan(x) <= 0.001 for every real x in [0,1]; it is odd and strictly increasing.",
  "every real x in [0,1]",
  "continuum of inputs",
  [FM+":fast_tan"])
p("tanh saturates like tanh",
  "The tanh approximation is odd, bounded by 1 in absolute value and non-decreasing in its argument.",
  "every real argument",
  "continuum of inputs",
  [FM+":tanh"])
p("sinh and cosh satisfy the hyperbolic identities",
  "If exp is exact, sinh and cosh satisfy cosh^2 - sinh^2 = 1, sinh odd, cosh even; in float arithmetic sinh(-x) = -sinh(x) and cosh(-x) = cosh(x) bit for bit for every exp implementation with non-NaN results.",
  "every argument and exp implementation",
  "all inputs",
  [FM+":sinh",FM+":cosh"])
p("sin_i16 never overflows and stays in range",
  "For every i16 phase and every u8 degree sin_i16 returns without overflow or panic, degrees above 4 behave like 4, and the final narrowing to i16 loses nothing; sin_i16_unchecked panics exactly for degree > 4.",
  "all 65536 phases, all 256 degrees",
  "exhaustive over phases and every intermediate step",
  [FX+":sin_i16",FX+":sin_i16_unchecked"])
p("sin_i16 approximates the sine",
  "For degree 4 and every phase p, |sin_i16(p,4) - 32768*sin(pi/2 * p/32768)| <= 5.",
  "all 65536 phases against the real sine function",
  "compares with a transcendental function",
  [FX+":sin_i16"])
p("fixed_point_sin and the sine oscillator stay in [-1, 1]",
  "fixed_point_sin(x) (and fixed_point_cos) returns a value in [-1,1] for every finite x.",
  "every finite f32",
  "2^32 inputs",
  [FM+":fixed_point_sin",FM+":fixed_point_cos",OF+":next_sine"])
p("lookup_sin never indexes outside its table",
  "lookup_sin(x) never panics, for every f32 x including NaN and infinities, and returns a value with absolute value at most 32768/32767 for finite x.",
  "every f32",
  "2^32 inputs with rounding at the table end",
  [FM+":lookup_sin",LT+":sine_table"])
p("lookup_bl_rect is memory safe",
  "lookup_bl_rect(x) never reads outside its 5075-entry table, for every f32 x.",
  "every f32",
  "the failing inputs are a handful of bit patterns around 0.25 and 0.75",
  [FM+":lookup_bl_rect",BL+":BANDLIMITED_RECT"])
p("lookup_bl_rect is bounded and clamps outside (0,1)",
  "lookup_bl_rect(x) is 0 for x <= 0 and x >= 1 and NaN, and lies in [-1,1] for every x whose lookup stays in the table; it is >= 0 on the first half and <= 0 on the second half.",
  "every f32",
  "2^32 inputs against 5075 table entries",
  [FM+":lookup_bl_rect"])
p("sine_table phases never wrap",
  "For every table size 1 <= N <= 65535 the generated table entry i is sin_i16 of phase i*(65535/N) - 32767, and no cast wraps or overflows.",
  "every N, every index",
  "const-generic parameter",
  [LT+":sine_table"])
# ---- oscillators
p("Phase accumulator counts modulo 2^32",
  "After n calls the phase value is (n*step + shift) mod 2^32 where step = (freq * (2^32/sr)) truncated to u32 in float arithmetic; next_value and next_value_normalized advance identically.",
  "every freq, sr, shift, number of calls",
  "unbounded histories",
  [PA+":next_value",PA+":tick"])
p("Frequency, rate and shift changes keep phase continuity",
  "set_freq_unchecked and set_sr_unchecked never change the current phase: over any history the phase advances at each call by exactly the step of the settings in force at that call, and set_phase_shift(s) offsets all later outputs by s without affecting the counter.",
  "every history of setter and next calls",
  "unbounded histories",
  [PA+":set_freq_unchecked",PA+":set_sr_unchecked",PA+":set_phase_shift",PA+":tick"])
p("Normalized phase lies in [0,1)",
  "next_value_normalized returns a value in [0,1).",
  "all 2^32 counter values",
  "only 128 of 2^32 counter values fail",
  [PA+":next_value_normalized"])
p("Sawtooth and triangle stay in [-1,1]",
  "FunctionalOscillator::next returns a value in [-1,1] for Sawtooth and Triangle, over every history.",
  "all counter values, histories and settings",
  "2^32 counter values with rounding",
  [OF+":next_saw",OF+":next_tri"])
p("Rectangle outputs only -1 and 1",
  "FunctionalOscillator::next with Rectangle returns -1.0 or 1.0, +1 exactly in the second half of the cycle.",
  "all counter values, histories and settings",
  "the glitch needs one of 128 counter values out of 2^32",
  [OF+":next_rect"])
p("Waveform shapes follow the phase",
  "Sawtooth is 2*phase - 1 and triangle rises from -1 to 1 in the first half of the cycle and falls back in the second half; each is monotone in the phase on those ranges.",
  "all pairs of counter values",
  "pairs of 2^32 values",
  [OF+":next_saw",OF+":next_tri"])
p("WavetableOscillator reads only its table",
  "WavetableOscillator::next on a live table of length >= 2 never reads outside the table.",
  "all table lengths, phases, histories",
  "needs a phase in the last table step, an out-of-bounds read that usually returns garbage silently",
  [OW+":next",MS+":lerp_unchecked"])
p("set_freq validates its argument",
  "SoftPhaseAccumulator::set_freq returns Err(Zero) iff freq == 0, Err(Negative) iff freq < 0 and an error for frequencies above Nyquist or NaN; otherwise the new frequency takes effect.",
  "every f32 freq",
  "all inputs",
  [PA+":set_freq"])
p("The oscillator frequency is accurate",
  "For 0 < freq < sr/2 in the normal range, the phase step differs from the ideal freq*2^32/sr by less than 1 plus a relative error of 2^-22.",
  "every freq and sr",
  "2^64 pairs",
  [PA+":new",PA+":tick"])
# ---- stereo
p("Pan position checking",
  "mono_pan and stereo_pan return Err(TooLeft) iff amount < -1, Err(TooRight) iff amount > 1, else Ok of the unchecked result.",
  "every f32 amount and samples",
  "all inputs",
  [ST+":mono_pan",ST+":stereo_pan"])
p("Equal-amplitude gains lie in [0,1] and sum to one",
  "For amount in [-1,1] both mono pan gains lie in [0,1] in float arithmetic, are monotone in the amount, and sum to exactly 1 in exact arithmetic (within 2^-24 in floats).",
  "every f32 amount in [-1,1]",
  "2^31 inputs with rounding",
  [ST+":mono_pan_unchecked"])
p("Panning is mirror symmetric",
  "Panning by -a gives the swapped gains of panning by a, bit for bit, for mono and stereo; at the extremes one side is silent and the other is the unchanged sample.",
  "every f32 amount and sample",
  "all inputs",
  [ST+":mono_pan_unchecked",ST+":stereo_pan_unchecked",ST+":crossfade_correlated_unchecked"])
p("Equal-power panning preserves power",
  "With an exact square root, the squared stereo gains sum to 1 for every amount in [-1,1].",
  "every real amount",
  "continuum",
  [ST+":stereo_pan_unchecked"])
# ---- clipping
p("digital_clip clamps to [-1,1]",
  "digital_clip(x) lies in [-1,1] for every non-NaN x, equals x when x is already inside, is idempotent and monotone, passes NaN through, and never panics.",
  "every f32 (pairs for monotonicity)",
  "2^64 pairs",
  [CL+":digital_clip"])
p("Soft clippers return a sample for every input",
  "tanh_clip, poly_clip and sigmoid_clip return a value in [-1,1] for every non-NaN input.",
  "every f32",
  "all inputs",
  [CL+":tanh_clip",CL+":poly_clip",CL+":sigmoid_clip"])
# ---- decibels
p("Decibel conversion reports its error cases",
  "to_decibels is Err iff the ratio is < 0; to_decibels_checked is Err(Nan) iff < 0 and Err(Infinite) iff == 0 (either sign of zero); otherwise both are Ok(20*log10(x)). They never return Ok(NaN).",
  "every f32 and every log10 implementation meeting its contract",
  "all inputs incl. NaN",
  [DB+":to_decibels",DB+":to_decibels_checked"])
p("Decibel and ratio conversions are inverse",
  "In exact real arithmetic to_volt_ratio(to_decibels_unchecked(x)) = x for x > 0 and conversely, and both are strictly increasing.",
  "every real x",
  "continuum",
  [DB+":to_decibels_unchecked",DB+":to_volt_ratio"])
# ---- envelope
p("Envelope output stays in [0,1]",
  "For every history of API calls with non-NaN sustain arguments and finite positive settings, tick returns a value in [0,1], given a powf that returns a non-NaN, non-negative result on non-negative bases.",
  "every history of trigger_on, trigger_off, reset, setters and tick; every powf meeting the contract",
  "unbounded histories with rounding",
  [EN+":tick",EN+":next_attack",EN+":next_decay",EN+":next_release"])
p("Envelope state changes only along the ADSR graph",
  "tick moves Attack only to Attack/Decay, Decay only to Decay/Sustain, Release only to Release/Idle and leaves Idle and Sustain alone; trigger_on always leads to Attack; trigger_off leads from Attack/Decay/Sustain to Release and does nothing in Idle/Release; setters never change the state.",
  "every reachable state and call",
  "all histories",
  [EN+":tick",EN+":trigger_on",EN+":trigger_off",EN+":reset"])
p("Attack, decay and release finish",
  "Left ticking, a triggered envelope reaches Decay, then Sustain, and after trigger_off reaches Idle, each within a bound computed from the rate, provided the per-sample rate is at least 2^-22 and powf(t,_) >= 1 for t >= 1.",
  "every setting with rate >= 2^-22, every start phase, every powf meeting the contract",
  "liveness over unbounded ticks with float accumulation",
  [EN+":next_attack",EN+":next_decay",EN+":next_release"])
p("Idle and reset are silent, sustain holds",
  "In Idle every tick returns 0 until trigger_on; after reset likewise from any state; in Sustain every tick returns the current sustain level until a trigger.",
  "every state and number of ticks",
  "unbounded",
  [EN+":tick",EN+":reset"])
p("Release starts at the current level and never rises above it",
  "After trigger_off the release output never exceeds the level output at the moment of trigger_off, and it is never negative.",
  "every history, every powf meeting the contract",
  "history dependent (set_sustain while sustaining)",
  [EN+":trigger_off",EN+":next_release",EN+":set_sustain"])
p("Decay stays between sustain and 1",
  "During Decay the output is at least the sustain level and at most 1.",
  "every history, every powf meeting the contract",
  "rounding of (1-s)+s for every s",
  [EN+":next_decay"])
p("Retriggering does not jump",
  "trigger_on during Decay, Sustain or Release restarts the attack from the current output level.",
  "every state",
  "state dependent",
  [EN+":trigger_on",EN+":next_attack"])
p("Time parameters mean seconds",
  "Attack/decay/release set to T seconds at rate sr advance the phase by 1/(T*sr) per tick, for every T > 0; only very short times are limited.",
  "every T and sr",
  "continuous parameters",
  [EN+":set_time_parameter",EN+":set_attack"])
p("Changing the sample rate rescales the envelope",
  "After set_sr the attack, decay and release keep their duration in seconds.",
  "every setting",
  "all settings",
  [EN+":set_sr"])
p("Envelope constructor and setters panic only on degenerate rates",
  "new and the time setters panic exactly when 0.5/sr is NaN or exceeds f32::MAX (sr zero, NaN or tiny); set_sustain, set_slope, set_sr, triggers and tick never panic.",
  "every f32 argument",
  "all argument combinations",
  [EN+":new",EN+":set_time_parameter",EN+":set_slope"])
p("fixed_point_sin follows the real sine",
  "For every finite x, fixed_point_sin(x) is within 3/10^4 + |x|/(4*10^6) of the real sine of x.",
  "every finite f32, every rem_euclid meeting its contract",
  "a continuum of arguments against a transcendental function",
  [FM+":fixed_point_sin",FX+":sin_i16"])
p("fixed_point_cos follows the real cosine",
  "For every finite x, fixed_point_cos(x) is within 4/10^4 + |x|/(2*10^6) of the real cosine of x.",
  "every finite f32, every rem_euclid meeting its contract",
  "a continuum of arguments against a transcendental function",
  [FM+":fixed_point_cos"])
p("lookup_sin follows the real sine",
  "For every finite x, lookup_sin(x) is within 1/10^3 + |x|/10^6 of the real sine of x.",
  "every finite f32, every rem_euclid meeting its contract",
  "a continuum of arguments against a transcendental function",
  [FM+":lookup_sin"])
p("The sine oscillator is a sine of the phase",
  "From every state, next of a sine oscillator succeeds, advances the accumulator once, returns a value in [-32768/32767, 1] within 4/10^4 of sin(2*pi*phase).",
  "every state, so every history of calls and settings",
  "2^32 phases times every reachable state",
  [OF+":next_sine"])
p("Functional oscillator over every history",
  "After any sequence of next, set_freq, set_phase_shift, reset and waveform changes, a FunctionalOscillator has not failed, its accumulator went through exactly the corresponding calls, and the next output is within 4/10^4 of the ideal waveform in force at the phase reached (rectangle: outside 256 counter units before each edge).",
  "every initial state and every finite sequence of calls",
  "call histories are unbounded",
  [OF+":next",PA+":next_value"])
p("A phase shift is a number of turns",
  "set_phase_shift(s) moves the phase by s turns, modulo one turn, for every finite s.",
  "every finite f32 and every accumulator state",
  "every f32 including negatives and values beyond one",
  [OF+":set_phase_shift_unchecked",PA+":set_phase_shift"])
p("Wavetable oscillator over every history",
  "After any sequence of calls the accumulator of a WavetableOscillator went through exactly the corresponding calls and the table is the one given; a failure can only be an out-of-range read of the last table interval.",
  "every table up to 2^24 samples and every finite sequence of calls",
  "call histories are unbounded",
  [OW+":next",PA+":next_value"])
p("Comb with settings changed while it runs",
  "With feedback and dampening set anew before every tick, each tick uses the settings of that tick and loses no stored sample; if |feedback| stays at most F < 1 and dampening within [0,1], a bounded input b keeps the output within b/(1-F).",
  "every sequence of settings and inputs, every buffer length",
  "infinitely many setting schedules",
  [CB+":set_feedback",CB+":set_dampening",CB+":tick"])
p("change_buffer keeps the cursor and the settings",
  "After change_buffer with a buffer longer than the cursor, delay line, comb and all-pass read the new buffer starting at the old cursor and carry over their settings and filter state.",
  "every cursor, buffer content and input",
  "every combination of cursor and buffer",
  [DL+":change_buffer",CB+":change_buffer",AP+":change_buffer"])
p("A comb recovers from a NaN sample",
  "If one input sample is NaN, then from some tick on the output of the comb is free of NaN again.",
  "every settings, buffer, input and position of the NaN",
  "needs all later outputs",
  [CB+":tick"])
p("An all-pass confines a NaN sample to its cell",
  "If one input sample is NaN, the outputs of that tick and of every tick a multiple of the buffer length later are NaN, and all other outputs are unaffected.",
  "every buffer, input and position of the NaN",
  "needs all later outputs",
  [AP+":tick"])
p("Every envelope sample is known",
  "From trigger_on in Idle or Attack the k-th sample is (k steps of the attack rate)^(1/slope) until it reaches 1; then the decay samples (1 - t^slope)(1 - sustain) + sustain until they reach the sustain level; then the sustain level until trigger_off; then (1 - t^slope) * level until at most 2^-23, returned as 0.",
  "every setting, every powf, every stage length and every length of the held gate",
  "the length of a cycle is unbounded",
  [EN+":next_attack",EN+":next_decay",EN+":next_release",EN+":tick",EN+":new"])
p("A stage takes the time asked for",
  "An attack, decay or release set to S samples lasts between 0.98 S and 1.01 S + 1 ticks, for 1 <= S <= 2^17 (decay to a sustain level of at most 63/64, release from a level of at least 1/64).",
  "every envelope reached with times of at least one sample and slopes from 1/20 to 20, every S in the range, rounding of the accumulated time included",
  "depends on accumulated rounding over up to 131072 additions",
  [EN+":set_time_parameter",EN+":next_attack",EN+":next_decay",EN+":next_release"])
p("Attack rises, decay and release fall",
  "Within an attack no sample is below its predecessor; within a decay or release none is above it, and a decay never goes below the sustain level.",
  "every envelope reached with times of at least one sample and slopes up to 20, every powf that is monotone in its base",
  "all reachable states, rounding included",
  [EN+":next_attack",EN+":next_decay",EN+":next_release"])
p("Envelope setters are independent",
  "new puts each argument into its own setting; each setter changes its own setting only; setting attack outside Attack, decay after the decay, release before the release and sustain in the release do not change the samples of the stage under way.",
  "every envelope state and every argument",
  "all states, all arguments, all later samples",
  [EN+":new",EN+":set_attack",EN+":set_decay",EN+":set_sustain",EN+":set_release",EN+":set_slope",EN+":set_sr"])
p("Filters act at the requested cutoff",
  "For 0 < fc <= 0.318 sr there is a frequency within one thousandth of fc at which low-pass and high-pass have gain q at a quarter turn, the all-pass turns by half a turn, the notch blocks and the bell has its gain (exact arithmetic).",
  "every fc, q, gain, sr in the range",
  "a continuum of designs",
  [BW+":setup_coeffs",BW+":lowpass",BW+":highpass",BW+":allpass",BW+":notch",BW+":bell"])
p("A stable biquad scales and shifts a cosine",
  "Fed with a cosine, a stable biquad approaches the cosine of the same frequency scaled by the magnitude and shifted by the angle of its gain, from every initial state; at its cutoff a low-pass turns a cosine into q times a sine.",
  "every stable coefficient set, frequency and initial state (exact arithmetic)",
  "a statement about the limit of infinitely many outputs",
  [BQ+":process",BW+":lowpass"])
p("A stable biquad keeps bounded inputs bounded",
  "For a stable biquad there is a factor C so that every input bounded by B gives outputs bounded by C*B for ever (exact arithmetic).",
  "every stable coefficient set, every bounded input",
  "all infinite inputs",
  [BQ+":process"])
p("sinc returns sin(x)/x",
  "sinc(x) is within 1/100 of sin(x)/x, and 1 at zero.",
  "every finite x",
  "all floats; the error blows up as x approaches zero, where the sine is a multiple of 2^-15",
  [FM+":sinc",FM+":fixed_point_sin"])
p("si returns the sine integral",
  "si(x) is within 1/10 of the integral of sin(t)/t from 0 to x.",
  "every finite x with |x| <= 4",
  "a continuum of inputs and an integral that no test computes; the error comes from swapped Simpson weights",
  [FM+":si",FI+":simpsons_rule"])
p("Correlated crossfade is a linear blend",
  "crossfade_correlated_unchecked(a,(x,y)) is (1-a)/2*x+(1+a)/2*y: exactly in exact arithmetic, to 2^-21 of the larger sample in floats; the ends give one sample alone and negating a swaps the inputs bit for bit.",
  "every a in [-1,1] and every sample pair (in floats up to 2^98 in size)",
  "all pairs of floats, rounding included",
  [ST+":crossfade_correlated_unchecked",ST+":equal_amplitude_pan_unchecked"])
p("Slices made of arrays serve the array",
  "A MemorySlice made of part of an array reads element i of that part for i < len and reports OutOfBound otherwise; a write through it changes just that element of the array; as_slice gives back the part; change_slice_unchecked makes one slice serve the samples of another.",
  "every array, part, index and value",
  "all memories and indices",
  [MS+":from_slice",MS+":from_slice_mut",MS+":as_slice",MS+":change_slice_unchecked"])
p("A float biquad never blows up",
  "Run in floats from rest, a biquad whose poles keep a margin from the unit circle and from the real axis (product of the distances at least 2^-20) never produces an infinity or a NaN, and its output never exceeds 13 times the largest feed-forward product divided by the margin.",
  "every finite coefficient set with that margin, every infinite input with feed-forward products between 2^-120 and 2^60",
  "all infinite runs, the rounding error of every operation included",
  [BQ+":process"])
p("A float biquad follows the exact one for ever",
  "The float output differs from the output of the same filter in exact arithmetic by at most 2^-14 times the largest feed-forward product divided by the squared margin, at every time.",
  "the same coefficient sets and inputs",
  "rounding errors are fed back for ever; no finite run shows they do not accumulate",
  [BQ+":process"])
p("Designs stay stable after rounding",
  "With the coefficients as computed in floats, low-pass, high-pass, all-pass, notch, bell and low shelf have both poles inside the unit circle for sr/10000 <= fc <= 0.318 sr and 1/16 <= q <= 64 (cuts: fc from sr/3200, gain from -1/16 to -16 for the bell, -1 to -64 for the shelf).",
  "every float fc, q, sr, gain in the ranges, every powi within 32 ulp, every sqrt within a factor of two",
  "about 2^96 designs, rounding included",
  [BW+":setup_coeffs",BW+":lowpass",BW+":highpass",BW+":allpass",BW+":notch",BW+":bell",BW+":low_shelf"])
p("fast_tan on floats",
  "For floats 0 <= x <= 1 fast_tan is at most 2^-17 above and at most 1/1000 + 2^-17 below tan(x), rounding included.",
  "every float in [0,1], every powi within 32 ulp",
  "a billion inputs against a transcendental function",
  [FM+":fast_tan"])
p("Filters designed and run in floats never blow up",
  "A low-pass, high-pass, all-pass or notch designed in floats with sr/2400 <= fc <= 0.318 sr (20 Hz at 48 kHz) and 0.6 <= q <= 2 and run in floats from rest stays finite and below 2^26 times the largest input, for ever; below 2^23 times from sr/600 up.",
  "every such fc and q, sr from 1 to 2^30, and every infinite input bounded by 2^58",
  "all designs and all infinite runs, rounding included",
  [BW+":setup_coeffs",BW+":lowpass",BW+":highpass",BW+":allpass",BW+":notch",BQ+":process"])
p("Processors on separate buffers do not interfere",
  "Any number of delay lines, combs and all-passes on pairwise disjoint buffers, ticked in any order, each produce exactly the samples they would produce alone.",
  "every rack of processors, every disjoint layout in memory, every schedule and every input",
  "schedules and layouts are unbounded; a stray write shows only for particular neighbours",
  [DL+":write_and_advance",CB+":tick",AP+":tick",MS+":assign_unchecked"])
p("A copy of a delay line is independent",
  "DelayLine is Copy: after a copy, ticking one of the two does not change what the other outputs.",
  "every delay line, every input to either copy",
  "needs two aliases of one buffer and their interleavings",
  [DL+":DelayLine",DL+":write_and_advance",MS+":MemorySlice"])
p("A slice cannot outlive its buffer",
  "Reading through a MemorySlice made by from_slice is never undefined behaviour, whatever happened to the array since.",
  "every slice, every later state of memory in which the array is gone",
  "use after free may go unnoticed in a test",
  [MS+":from_slice",MS+":get"])
p("A modulated comb stays bounded in floats",
  "With feedback and dampening set anew before every tick, dampening in [0,1] and |x| + 2^e |feedback| <= 2^e at every tick, every output of a comb is finite and at most 2^e in size, rounding included.",
  "every buffer, every infinite sequence of settings and samples, e <= 126",
  "all infinite runs with all settings, including the growth of rounding errors",
  [CB+":tick",CB+":set_feedback",CB+":set_dampening"])
p("A comb falls silent after its input does",
  "A comb whose input is zero from some moment on outputs only zeros from some later moment on.",
  "every fresh comb, every input bounded by 1 that ends",
  "needs the limit of an infinite run down to the smallest denormals",
  [CB+":tick",CB+":new"])
p("An all-pass falls silent after its input does",
  "Whatever finite samples the buffer holds, with zero input the output of an all-pass is exactly zero after 278 rounds of the buffer.",
  "every buffer length and contents",
  "all contents including denormals, unbounded buffer lengths",
  [AP+":tick"])
p("Rounding errors of comb and all-pass do not build up",
  "A float comb (settings moving, dampening <= D < 1, |feedback| <= F < 1, bounded by 2^e) never differs from the exact comb by more than 2^e/2^21/((1-D)(1-F)); a float all-pass never by more than 2^e/2^20.",
  "every infinite run, every buffer length, e up to 98",
  "drift over unbounded time cannot be observed by a finite test",
  [CB+":tick",AP+":tick"])
p("Interpolation keeps shape after rounding",
  "lerp in float arithmetic keeps the shape of the segment: between equal ends it returns them, it stays between its ends, and it is monotone in the factor.",
  "all finite a, b and all factors in [0,1]",
  "needs the worst case of three roundings over all pairs of floats",
  [IP+":lerp",IP+":lerp_unchecked"])
p("Comb and all-pass are linear and time invariant",
  "In exact arithmetic the output of a comb (with settings moving along) and of an all-pass is linear in input and buffer contents together; delaying the input of a silent one delays the output.",
  "every buffer length and contents, every infinite input, every course of the settings",
  "superposition over all infinite signals",
  [CB+":tick",AP+":tick"])
p("An oscillator does not drift",
  "However long an oscillator runs, its phase stays within a hundredth of a turn of the ideal freq/sr per sample.",
  "every frequency and sample rate in the audible range, every number of samples",
  "the drift shows only after hours of samples",
  [PA+":tick",PA+":new"])
p("Bit depths compose",
  "Reducing by d and then by e is the same as reducing by the coarser of the two at once, bit for bit, for both bit reducers.",
  "every sample in [-1,1] (every float for the second), every pair of accepted depths",
  "all floats times all pairs of depths",
  [BM+":bit_reduce",BM+":bit_reduce_exp"])
p("Panning keeps power after rounding",
  "With a square root whose square is off by at most the share eps, a finite signal up to 2^40 on both channels of stereo_pan keeps its power within eps + 2^-18, at every position in [-1,1].",
  "every position, every sample, every such square root",
  "all floats, and every admissible external function",
  [ST+":stereo_pan",ST+":equal_power_pan_unchecked"])
p("Sine and cosine stay in quadrature",
  "For arguments up to 1000, fixed_point_sin(x)^2 + fixed_point_cos(x)^2 is within 3/1000 of 1.",
  "every finite x up to 1000 in size, debug and release",
  "all floats of the range against the real functions",
  [FM+":fixed_point_sin",FM+":fixed_point_cos"])
p("A fractional delay does not depend on the cursor",
  "read_lerp_wrapped_at(off) blends the two past samples around the offset with the weights of its fractional part, wherever the cursor stands in the buffer.",
  "every delay line up to 2^20 samples, every cursor, every offset within the buffer",
  "needs every cursor position in long buffers",
  [DL+":read_lerp_wrapped_at",MS+":lerp_wrapped"])
p("Four-point interpolation follows the cubic after rounding",
  "On four finite samples up to M (at most 2^60) and a position between the first and last node, lagrange and the four-point kernel return the same finite float within M/2^13 of the cubic through the samples; it exceeds the samples by less than 65 percent, and between the middle two by at most 26 percent.",
  "all finite samples and positions in range",
  "five-dimensional input of floats; the worst overshoot lies at particular samples",
  [IP+":lagrange",IP+":lagrange_only_4_elements"])
p("Low-pass and high-pass are monotone or peak as q says",
  "In exact arithmetic, for q^2 <= 1/2 the low-pass magnitude falls and the high-pass magnitude rises steadily over all frequencies, with 12 dB per octave beyond the cutoff; for q^2 >= 1/2 the largest gain over all frequencies is exactly q/sqrt(1 - 1/(4q^2)).",
  "every cutoff, q and sample rate, every frequency",
  "a continuum of frequencies times a continuum of designs",
  [BW+":lowpass",BW+":highpass"])
p("Notch and bell have the width and height asked for",
  "In exact arithmetic the notch amplifies no frequency and halves the power at exactly two, whose distance is the centre over q; a bell boost stays between 1 and its gain, a cut between 1/gain and 1, both steadily towards the centre.",
  "every cutoff, q, gain and sample rate, every frequency",
  "a continuum of frequencies times a continuum of designs",
  [BW+":notch",BW+":bell",BW+":bell_boost_only",BW+":bell_cut_only"])
p("A low shelf stays between its two gains",
  "In exact arithmetic a low shelf of gain >= 1 lies between 1 and its gain at every frequency and falls steadily from one to the other, for every q.",
  "every cutoff, q, gain and sample rate, every frequency",
  "a continuum of frequencies times a continuum of designs",
  [BW+":low_shelf",BW+":low_shelf_boost_only",BW+":low_shelf_cut_only"])
p("Comb and all-pass answer a cosine with a scaled cosine",
  "In exact arithmetic, from any contents, a comb with |feedback| < 1 and dampening in [0,1) turns a cosine into the cosine scaled and shifted by its transfer function, of gain between 1/(1+|fb|) and 1/(1-|fb|), and a constant a into a/(1-fb); the all-pass has transfer function (3/2 - z^L)/(z^L - 1/2), of gain between 1 and 5/3.",
  "every buffer length and contents, every stable setting, every frequency",
  "a limit over infinite signals at a continuum of frequencies",
  [CB+":tick",AP+":tick"])
p("tanh follows the hyperbolic tangent near zero",
  "For non-negative x, tanh in exact arithmetic lies below the true hyperbolic tangent, by at least x^3/((3+x^2)(2+x^2)) and at most x^3/6, and by less than 2/21 up to 1; in floats, for |x| <= 1, the result is finite, within |x|^3/6 + 2^-17 of the true value and within 1/10.",
  "all reals, and all finite floats in [-1, 1]",
  "a bound against a transcendental function over a continuum",
  [FM+":tanh",FM+":exp_approx"])
p("A whole voice never fails and stays in range",
  "An oscillator times an envelope into a comb into a fixed low-pass, high-pass, all-pass or notch (cutoff from sr/2400), clipped and panned, played by any calls on the oscillator and, within sane ranges, on the envelope, the comb settings and the pan before each sample: no step ever faults, memory outside the comb's buffer is never touched, and both outputs are finite and within [-1,1] forever; if no key is ever pressed both outputs are exactly zero forever.",
  "every patch in range, every sequence of touches, every number of ticks",
  "an invariant of the composition of six stateful parts over unbounded time",
  [OF+":next",EN+":tick",CB+":tick",BQ+":process",CL+":digital_clip",ST+":mono_pan_unchecked"])
p("Rounding keeps the zeros of the designs",
  "With coefficients computed in floats, over the range in which the designs are stable: the low-pass has gain exactly 0 at half the sample rate, the high-pass exactly 0 on constants, the notch cancels some frequency completely, and the all-pass has magnitude exactly 1 at every frequency.",
  "fc from sr/3200 to 0.318 sr, q from 1/16 to 64, every sample rate",
  "an exact identity between rounded coefficients over a continuum of settings",
  [BW+":lowpass",BW+":highpass",BW+":allpass",BW+":notch"])
p("A float low-pass has unit gain on constants up to rounding",
  "With coefficients computed in floats, the low-pass settles on a constant input at 1 within 2.5 percent for fc from sr/600, and within 1/4000 from sr/60 (q from 0.6 to 2); at lower cutoffs the error grows: 4.9 percent at 16 Hz and 48 kHz.",
  "every setting in range, every initial state",
  "the worst rounding lies at particular settings",
  [BW+":lowpass",BQ+":process"])
p("A network of processors is the composition of its parts",
  "Any number of delay lines, combs and all-passes over separate slices of one memory, each fed by any function of the input and of the answers before it at the same tick: no tick ever fails, every answer is the one the processor gives alone to the signal on its wire, and no cell outside the slices ever changes.",
  "every network, wiring, memory, input signal and time",
  "quantifies over all networks and all infinite signals",
  [CB+":tick",AP+":tick",DL+":write_and_advance",DL+":read"])
p("A reverb stays bounded for ever",
  "Up to 2^24 combs in parallel, summed and sent through up to 15 all-passes in series, over separate slices: with every comb leaving room (|x| + 2^e |feedback| <= 2^e) no tick fails, the combs stay within 2^e and the output within 3^(all-passes) times any power of two that is at least 2^e times the number of combs, all roundings counted.",
  "every such reverb, all settings, all bounded inputs, unbounded time",
  "an invariant of a composed float system over unbounded time",
  [CB+":tick",AP+":tick"])
p("The rectangle table holds the sine integral",
  "Entry i of BANDLIMITED_RECT is 5/(3 pi) times the integral of sin(t)/t from 0 to i pi/100, within 3.6 millionths, for each of the 5075 entries.",
  "all 5075 entries, against the real integral",
  "no test computes the integral exactly; the proof bounds the distance to the real number",
  [BL+":BANDLIMITED_RECT"])
p("lookup_bl_rect follows the band-limited rectangle",
  "For every float phase x in (0,1) other than 1/4 and 3/4, lookup_bl_rect(x) is within 45 millionths of the real band-limited rectangle: 5/(3 pi) Si(50.74 pi f) with f the folded phase, positive in the first half and negative in the second.",
  "every float in the period, every build",
  "a bound against a real function over two billion floats",
  [FM+":lookup_bl_rect"])
p("A wavetable plays the waveform it was sampled from",
  "If the table holds N samples of a smooth waveform W, each to within e, then every sample a WavetableOscillator returns while it stays in its table is within e + M/(8 N^2) + L/2^22 + 1e-6 of W at the exact phase, L and M bounding the first and second derivative of W; for a sine this is 5/N^2 + 3e-6.",
  "every smooth waveform of at most 2 in magnitude, every table up to 2^24 samples, every accumulator state that stays in the table",
  "the bound compares floats with a real function for all tables and all phases",
  [OW+":next"])
p("The filter designs fit together",
  "For the same frequency, quality and sample rate, in exact arithmetic and for every input: the notch output is the low-pass output plus the high-pass output, the all-pass output is twice the notch output less the input, and the boosting bell adds gain - 1 times what the notch takes away.",
  "all positive frequencies, qualities and sample rates, every gain, every input sequence, every sample",
  "an identity between four design functions over all parameters and all inputs",
  [BW+":lowpass", BW+":highpass", BW+":notch", BW+":allpass", BW+":bell_boost_only", BQ+":process"])
p("Cascaded sections make the Butterworth filter of higher order",
  "n low-pass (high-pass) sections in series with the qualities 1/(2 cos((2i+1) pi/(4n))) are the Butterworth filter of order 2n: at every frequency, with r the ratio of the warped frequencies, the squared gain is 1/(1 + r^(4n)) (respectively r^(4n)/(1 + r^(4n))). Stable filters in series turn a cosine, from any state, into the cosine scaled and shifted by the product of their gains.",
  "every order, every frequency below Nyquist, every cutoff, every initial state",
  "infinitely many orders and frequencies, and a limit over time",
  [BW+":lowpass", BW+":highpass", BQ+":process"])
p("Crossovers built from the designs are all-pass",
  "Two low-passes in series plus two high-passes in series, all of quality 1/sqrt 2, give for every input exactly the output of the all-pass of the same frequency and quality; one low-pass less one high-pass of quality 1/2 has gain one at every frequency.",
  "all positive cutoffs and sample rates, every input sequence, every sample, every frequency",
  "an identity over all inputs and all frequencies",
  [BW+":lowpass", BW+":highpass", BW+":allpass", BQ+":process"])
p("Oscillators are exactly periodic",
  "With its settings left alone an accumulator, a functional oscillator of any waveform and a wavetable oscillator inside its table are in the same state after m and after n calls if and only if m and n differ by a multiple of 2^32 / gcd(step, 2^32), step being the advance per call; so their output repeats bit for bit with that period.",
  "every accumulator state, every frequency and sample rate, every waveform, every number of calls",
  "periods reach 2^32 calls",
  [PA+":next_value", OF+":next", OW+":next"])
p("The waves have no DC offset",
  "The mean of the output over one period of T calls is within 1/T + 2^-22 of zero for the sawtooth, 2^-20 for the triangle, 0.0004 for the sine and 4/T + 2^-22 for the rectangle.",
  "every accumulator state, every frequency, sample rate and shift (with a non-zero step, but for the sawtooth)",
  "the sums have up to 2^32 terms",
  [OF+":next_saw", OF+":next_tri", OF+":next_sine", OF+":next_rect"])
p("What a debug build returns, a release build returns",
  "Whenever a call returns a value in a build with overflow checks, the same call returns the same value in a build without: the readers of a slice and of a delay line, the sines, sinc, si and table lookups, the float field and bit-reduction functions, both oscillators under any sequence of settings, networks of delays, combs and all-passes at every tick, and a whole voice.",
  "every memory, slice, argument, operation sequence, wiring and tick, every word size",
  "tests run in one build; the claim is about every run of the other",
  [MS+":get_sub_slice", MS+":lerp", DL+":write_and_advance", FX+":sin_i16", CV+":to_f32_components", BM+":bit_reduce", OF+":next", OW+":next", CB+":tick", AP+":tick"])
p("Results do not depend on the word size of the target",
  "Calls give the same result, faults included, on every target of at least 32 bits, with buffers of at most 2^29 samples: slices, interpolated readers, delay lines, networks at every tick, whole voices, wavetable oscillators and the table lookups.",
  "every pair of word sizes from 32 to 64, every memory, index, float, wiring and tick",
  "the tests run on the host only, and the indices where the targets part exceed 2^30",
  [MS+":get_wrapped", MS+":lerp", MS+":lerp_wrapped", DL+":advance", OW+":next", FM+":lookup_sin", FM+":lookup_bl_rect", CB+":tick", AP+":tick"])
p("Inverting the signal inverts the output, and the sign of a zero never matters",
  "Feeding the inverted samples to a reader, a biquad (coefficients changing or not), a network of delays, combs and all-passes, a panner, a cross-fade, the clipper or a wavetable gives exactly the inverted output, bit for bit except for the sign of a zero; and replacing zeros by zeros of the other sign changes nothing but signs of zeros.",
  "every signal, state, coefficient sequence, wiring and tick, NaN and infinities included",
  "tests compare a few outputs with == on positive inputs; the claim relates two runs of any length",
  [MS+":lerp", BQ+":process", CB+":tick", AP+":tick", ST+":mono_pan_unchecked", ST+":crossfade_correlated_unchecked", CL+":digital_clip", OW+":next"])
p("Rounded biquads with any stable poles stay bounded and follow the exact filter",
  "Run in floats from rest, a biquad with poles p and q inside the unit circle, real or complex, whose margin (1-|p|)(1-|q|) is at least 2^-16 stays finite, below 18 G/margin, and within G/margin^2/2^13 of the same filter in exact arithmetic, where G bounds the feed-forward products; every stable filter has a positive margin.",
  "every finite coefficient set with such poles, every infinite input, 2^-120 <= G <= 2^60",
  "infinitely many samples, rounding included",
  [BQ+":process", BQ+":new"])
p("Every design, flat, boosting or cutting, and chains of them never blow up in floats",
  "Low-pass, high-pass, all-pass, notch, bell and low shelf with sr/600 <= fc <= 0.318 sr, designed and run in floats from rest, stay finite and below 2^29 times the largest input for ever: q from 1/16 to 2 and gain up to 64, bells cutting with a gain g of -1/16 to -16 where -g/16 <= q <= -g, shelves cutting with -1 to -16; and so do chains of such filters, with 2^29 per filter. Boosting ones with q from 0.6 to 2 do so from sr/2400 up, below 2^32 times the largest input.",
  "every such fc, q, gain and sr from 1 to 2^30, every infinite input bounded by 2^52",
  "all designs and all infinite runs, rounding included",
  [BW+":setup_coeffs", BW+":lowpass", BW+":highpass", BW+":allpass", BW+":notch", BW+":bell", BW+":low_shelf", BQ+":process"])
p("The unchecked bit reducers, for every float and every depth",
  "bit_reduce_unchecked and bit_reduce_exp_unchecked panic exactly when overflow checks are on and the depth is 32 or more. Depth 0 returns the input. Otherwise the depth counts modulo 32: the linear form keeps the sign, truncates magnitudes below 2 to a multiple of 2^depth/2^31, saturates larger ones and infinities at 2 - 2^depth/2^31 (2 below depth 8) and turns NaN into zero; the exponential form clears the low depth bits of the word, at most the 23 mantissa bits.",
  "all floats including NaN and infinity, all depths, both kinds of build",
  "2^32 floats times 256 depths times two builds; the checked forms hide most of it",
  [BM+":bit_reduce_unchecked", BM+":bit_reduce_exp_unchecked"])
p("Oscillators keep their phase relation",
  "Two phase accumulators with the same frequency and sample rate, started at any two phases, keep the difference of their phases (modulo one turn) through any history of calls and retunings made to both; so do the values they return, as long as the shifts are left alone.",
  "all accumulator states, all histories of calls",
  "needs every interleaving of calls and retunings, and drift would show after hours only",
  [PA+":tick", PA+":next_value", PA+":set_freq_unchecked", PA+":set_sr_unchecked"])
p("Octaves stay in phase",
  "An oscillator tuned k octaves above another (exactly 2^k times the frequency) at the same sample rate stays locked to it: its phase is always 2^k times the phase of the lower one, modulo one turn.",
  "all frequencies up to Nyquist, all k, all numbers of calls",
  "the steps differ in the last bits only; the drift becomes audible after minutes",
  [PA+":tick", PA+":new"])
p("Only the ratio to the sample rate matters",
  "Running at 2^k times the sample rate with 2^k times the frequency (or 2^k times shorter envelope times) gives the same results bit for bit: the same coefficients from every Butterworth design, the same phases and oscillator samples, the same envelope samples, through any history of calls and changes; over exact arithmetic the designs agree for every factor.",
  "all frequencies, times and rates in a wide range, all k, all histories of calls",
  "quantifies over pairs of configurations and whole histories",
  [BW+":setup_coeffs", PA+":tick", OF+":next", OW+":next", EN+":set_time_parameter", EN+":tick"])
p("Which sine tables compile",
  "sine_table::<N>() fails to compile exactly when N is a multiple of 65536 or (N-1)*(65535/(N mod 65536)) exceeds i32::MAX; every other size gives a table whose entry i is the fixed-point sine of i*(65535/(N mod 65536)) - 32767 wrapped into i16. In particular all sizes from 1 to 65535 compile, 65537 does not and 65538 does.",
  "all table sizes N up to 2^31",
  "a const-generic parameter: each N is a separate compilation",
  [LT+":sine_table"])
p("The filters as computed in floats are the textbook analogue filters, at every frequency",
  "For fc from sr/600 to 0.318 sr and q from 0.6 to 2, there are one corner angle within 0.11 percent of 2*pi*fc/sr and one Q within 2^-22 of q such that, at every frequency below half the sample rate, the complex gain of the low-pass, high-pass, all-pass, notch and boosting bell whose coefficients the code computes in f32 agrees with the gain of the second-order analogue section at the bilinearly warped frequency tan(theta/2)/tan(thetac/2): to (3/r^2+200)/2^24 relatively for low-pass and high-pass, to (8/r^2+400)/2^24 (times the boost) for the others, r = fc/sr. At the corner the low-pass has gain q at -90 degrees and the high-pass q at +90 degrees.",
  "all sample rates from 1 to 2^30, corner frequencies and q in range, all frequencies, boosts from 1 to 16, every powi within the contract",
  "a statement about complex gains at all real frequencies, under rounding of every intermediate",
  [BW+":lowpass", BW+":highpass", BW+":allpass", BW+":notch", BW+":bell_boost_only", BW+":setup_coeffs", FM+":fast_tan"])
p("A signal 2^k times as loud comes out exactly 2^k times as loud",
  "Feed a biquad (its coefficients replaced before any sample), or a network of delay lines, combs and all-passes with mixers between them, the same signal 2^k times as loud (state scaled alike). As long as no product of a sample and a setting has fallen below the normal range of f32 and nothing overflows, the output is bit for bit 2^k times as loud. The condition cannot be dropped: halving the least float gives 0, halving twice the least float does not.",
  "all signals, settings, states, networks, word sizes, k and sample numbers",
  "every rounding of every intermediate of an unbounded run has to commute with the scaling",
  [BQ+":process", DL+":DelayLine", CB+":tick", AP+":tick"])
p("The fixed-point sine rises and is odd",
  "sin_i16 covers a quarter turn to either side of 0, where the sine rises: a later phase gives a value at least as high; from each phase to the next it moves by at most 2 units; the values at z and -z are opposite.",
  "all 65536 phases and all pairs of them, both builds",
  "2^31 pairs of phases; the dips are single units at isolated phases",
  [FX+":sin_i16", FX+":sin_i16_unchecked"])
p("The loudness of the waves",
  "Over one period of T samples the mean square of the oscillator's output is that of the wave: 1/3 for the sawtooth and the triangle, 1/2 for the sine, 1 for the rectangle, up to terms that vanish with T and rounding; where in the period it starts makes no difference.",
  "all frequencies and sample rates (every step), all phases, shifts and counters, both builds; rem and floor under contract",
  "a statement about sums over up to 2^32 samples, for 2^32 steps and as many phases",
  [OF+":next", PA+":tick"])
p("A higher frequency never gives a lower pitch",
  "Of two accumulators at the same sample rate the one asked for the higher frequency moves on at least as far with every call; at a higher sample rate the same frequency moves on at most as far; frequencies below Nyquist one part in a million and a billionth of the sample rate apart give different pitches.",
  "all finite float frequencies including negative ones and those above the sample rate, all sample rates from 2^-90, all counters and shifts",
  "monotone over pairs of floats (2^64 of them) through a division, a product and a saturating conversion, each of which rounds",
  [PA+":tick", PA+":set_freq_unchecked", PA+":set_sr_unchecked"])
p("A stable filter forgets its past and falls silent",
  "What was in a stable biquad at the start dies away geometrically, so that two filters started differently put out the same in the end; once there is no input any more, a stable filter falls silent: its output becomes 0.",
  "all coefficients with poles at least 2^-16 inside the unit circle (measured as (1-|p|)(1-|q|)), all states up to 2^60, all bounded inputs, all times",
  "about every stable filter, every state and every input for ever; the ringing that remains is 2^-148 and starts hundreds of samples after the input has ended",
  [BQ+":process", BW+":lowpass"])
p("Decibels in float arithmetic",
  "With a log10 of absolute error e and a power of ten of relative error d, to_decibels is within 20 e + 2^-14 dB of 20 log10 x, to_volt_ratio is within d + 2^-16 of 10^(x/20) relatively, going there and back changes a level by at most d + 6 e + 2^-14 of itself, and back and there a decibel value by at most 20 (e + d) + 2^-11 dB.",
  "every positive finite float, denormals included (there and back: levels from 10^-29 to 10^29); decibels up to 600 either way; micromath's log10 and power as parameters with any error e and d",
  "2^31 levels, each through two approximations and four roundings, and for every possible size of the approximation errors",
  [DB+":to_decibels_unchecked", DB+":to_decibels", DB+":to_volt_ratio"])
p("A longer time asked for never makes a stage faster",
  "Of two envelopes in the same state, the one whose current stage is set to the longer time never finishes that stage earlier, and until then never is further along: no sample of the longer attack is higher, no sample of the longer decay or release lower.",
  "all states reached by any calls with times of at least one sample, all pairs of times, all slopes and levels, every number of ticks; powf monotone",
  "compares two executions of any length for every pair of times; rounding accumulates differently in the two",
  [EN+":set_attack", EN+":set_decay", EN+":set_release", EN+":set_time_parameter", EN+":tick"])
p("Cutoff and q turn the right way",
  "Turning up the cutoff makes a low-pass louder and a high-pass quieter at every frequency if there is no resonance (q^2 <= 1/2), and never at every frequency if there is; turning up q makes low-pass, high-pass and notch louder and a boosting bell quieter, at every frequency. In floats fast_tan never falls on [0,1], and a higher cutoff, a lower sample rate or a lower q never gives a smaller k^2 or k/q, nor a high-pass with a larger first coefficient.",
  "exact arithmetic: all cutoffs, q, sample rates and frequencies; floats: cutoffs from 2^-20 to 0.318 of the sample rate, sample rates from 1 to 2^30, q from 2^-60; powi within its error bound and monotone",
  "compares the responses of two filters over a continuum of frequencies; in floats, monotony through eight rounded terms for every pair of floats",
  [BW+":lowpass", BW+":highpass", BW+":notch", BW+":bell_boost_only", BW+":setup_coeffs", FM+":fast_tan"])
p("The gain of a bell turns the right way",
  "Turning up the gain of a bell never makes it quieter, at any frequency.",
  "all gains, positive and negative, all cutoffs, q, sample rates and frequencies",
  "compares responses over a continuum of gains and frequencies",
  [BW+":bell", BW+":bell_boost_only", BW+":bell_cut_only"])
p("A comb keeps the order of signals",
  "Of two float combs of the same length with the same settings (moved at will, feedback not negative), the one whose samples, cells and state are nowhere above those of the other never puts out more than the other; and with nothing negative anywhere, more feedback never gives less output, nor any negative output.",
  "all lengths, states and pairs of infinite signals, all feedback and dampening sequences that leave room below 2^126 (dampening in [0,1])",
  "compares two infinite executions for every pair of signals, where each rounds differently",
  [CB+":tick", CB+":set_feedback", CB+":set_dampening"])
p("The spectrum of the waves",
  "Over one period of T calls the m-th harmonic of the sawtooth has size 1/(T sin(pi m/T)) to within 2^-22; triangle and rectangle have no even harmonics (up to 2^-20, 4/T + 2^-22) and odd ones between cos(pi m/T) times and once 4/(T sin(pi m/T))^2, and of 2/(T sin(pi m/T)), to within the same; the sine has its fundamental of size 1/2 and no other harmonic above 0.0004, all others together carrying at most 1.6 * 10^-7 of power.",
  "every accumulator state, frequency, sample rate and shift (non-zero step; for the sine's fundamental more than two samples a period), every m",
  "sums of up to 2^32 terms, for each of up to 2^32 harmonics",
  [OF+":next_saw", OF+":next_tri", OF+":next_rect", OF+":next_sine", PA+":next_value_normalized"])
p("Which filters overshoot",
  "In exact arithmetic the step response of a low-pass with q > 1/2 exceeds its final value 1 at some sample; with q <= 1/2, warped cutoff K <= 1 and K/q <= 1 + K^2 it climbs to 1 without ever falling or exceeding it; the step response of a high-pass always goes below zero.",
  "every cutoff, sample rate and q > 0 (in the stated ranges), every sample",
  "quantifies over infinite responses for a continuum of designs",
  [BW+":lowpass", BW+":highpass", BQ+":process"])
p("How long a comb rings",
  "In float arithmetic, without dampening, the k-th echo of an impulse A in a comb of feedback g, |g| <= 1, is A g^k up to one rounding per echo, never louder than the echo before, and everything between the echoes is zero; for 0 < g <= 1 - 2^-10 the echoes pass -60 dB after 3/log10(1/g) rounds of the buffer, to one part in 4096.",
  "all buffer lengths, feedbacks and finite impulses (A >= 2^-90 for the time), every k",
  "the number of echoes is unbounded and each one is rounded",
  [CB+":tick", CB+":set_feedback", CB+":set_dampening"])
p("An envelope does not click",
  "Whatever the gate does, no two consecutive samples of an envelope (nor silence and the first sample) differ by more than its curve moves in one step of the fastest stage, plus 2^-21 for rounding.",
  "every envelope with times of at least one sample and slopes up to 20, every history of gates and ticks, every powf with the given modulus of continuity",
  "all histories of gates; stages may be cut short anywhere",
  [EN+":tick", EN+":trigger_on", EN+":trigger_off", EN+":next_attack", EN+":next_decay", EN+":next_release"])
p("What the filters do to the energy of a signal",
  "In exact arithmetic: an all-pass never emits more energy than it was given and gives back all of it in the end; a low-pass and a high-pass of the same setting with q <= 1/sqrt 2 together never emit more energy than they were given, and at q = 1/sqrt 2 exactly as much in the end; a notch never adds energy; a bell or low shelf with gain g >= 1 emits between 1 and g^2 times the energy, with gain -g between 1/g^2 and 1 times; a bell with a gain g between 0 and 1 emits between g^2 and 1 times the energy, with gain -g between 1 and 1/g^2 times; a low-pass or high-pass with q > 1/sqrt 2 adds energy to some signal.",
  "every cutoff, sample rate, q and gain in the stated ranges, every input signal and every number of samples",
  "a statement about all signals, including infinite ones, and a continuum of designs",
  [BW+":lowpass", BW+":highpass", BW+":allpass", BW+":notch", BW+":bell", BW+":low_shelf", BQ+":process"])
p("Turning the cutoff while the filter runs",
  "A low-pass whose cutoff is set anew before any sample keeps a bounded input finite.",
  "every sequence of stable cutoffs, every input with |x| <= 1, every number of samples",
  "all infinite sequences of settings; each single setting is stable, only their alternation is not",
  [BW+":lowpass", BQ+":process"])
p("Modulating the cutoff within an octave",
  "A filter (low-pass, high-pass, all-pass, notch, boosting bell, in floats also boosting low shelf) whose cutoff, q, gain and even kind are set anew before every sample stays bounded as long as the cutoff stays within one octave [f, 2f] with 2f <= sr/4 and 1/8 <= q <= 1: in exact arithmetic the output is bounded by a constant times the input and the filter forgets its past state geometrically; in floats (f >= sr/275) the output of inputs |x| <= m <= 2^22 is finite and at most 2^31 m.",
  "every sequence of settings in the range, every bounded input, every number of samples",
  "all infinite sequences of settings; C178 shows that stability of each single setting is not enough",
  [BW+":lowpass", BW+":highpass", BW+":allpass", BW+":notch", BW+":bell", BW+":low_shelf", BQ+":process"])
p("What the delay effects do to the energy of a signal",
  "In exact arithmetic, starting from an empty buffer: a comb with feedback g, |g| < 1, never emits more than 1/(1-|g|)^2 times the energy it was given, whatever its dampening in [0, 1], and in the end at least 1/(1+|g|)^2 times; the delay all-pass never emits more than 25/9 times the energy it was given and in the end loses none.",
  "every buffer length, every feedback and dampening in range, every input signal, every number of samples",
  "a statement about all signals, including infinite ones, through a recurrent loop",
  [CB+":tick", CB+":set_feedback", CB+":set_dampening", AP+":tick"])
p("A delay line returns the signal at the delayed time",
  "A delay line that has been fed a full buffer of samples of a smooth signal S, read at a fractional offset off inside the buffer, answers with S at the time off samples after now (off < 0), within the recording error, an eighth of the bend of S per sample, the slope of S times (length+2)/2^24, and a millionth. In particular a tap moving by v samples per sample turns a tone of frequency w into one of frequency w(1+v).",
  "every delay line up to 2^20 samples, every state of it before, every smooth signal and number of samples, every offset within the buffer",
  "a statement about all smooth signals, all fractional offsets and all cursor positions",
  [DL+":write_and_advance", DL+":read_lerp_wrapped_at", MS+":lerp_wrapped", IP+":lerp_unchecked"])
p("How the filters turn the phase",
  "There is one lag phi, growing strictly from 0 at DC to half a turn at Nyquist and a quarter turn at the corner, such that the low-pass delays every tone by the phase phi, the high-pass advances it by half a turn less phi, the all-pass delays it by 2 phi at unchanged strength, and the notch passes cos(phi) of it with lag phi. In floats the same holds up to the relative error of C162.",
  "every cutoff, quality and sample rate (floats: from sr/600 to 0.318 sr, q from 0.6 to 2), every frequency between 0 and Nyquist, every initial state",
  "a statement about the phase at every frequency of every filter",
  [BW+":lowpass", BW+":highpass", BW+":allpass", BW+":notch", BQ+":process"])
p("A Lagrange read of a delay line is accurate to fourth order",
  "A delay line that has been fed a signal with a bounded fourth derivative, read with read_lagrange_wrapped_at at a fractional offset inside the buffer, answers with the signal at that time (or a fixed number of samples beside it), up to a multiple of the fourth derivative, the recording error, the slope times the rounding of the position, and one percent.",
  "every signal with four derivatives, every line of up to 2^20 samples, every cursor position and fractional offset inside the buffer",
  "a steady input at a fractional offset is enough to see it fail, but the bound concerns every smooth signal at every offset",
  [DL+":read_lagrange_wrapped_at", MS+":lagrange_wrapped", IP+":lagrange"])
p("How a filter rings",
  "Once the input has ended, a low-pass, high-pass, all-pass, notch, bell boost or low-shelf boost of quality above 1/2 goes on as one decaying tone, the same for all of them whatever they were fed: with the cutoff angle t and a = sin(t)/(2q) it shrinks by sqrt((1-a)/(1+a)) per sample, so a fall by the factor D takes between (1-a^2) log(D)/a and log(D)/a samples; its pitch w has cos(w) = cos(t)/sqrt(1-a^2), below the cutoff for cutoffs under a quarter of the sample rate, above it over that, and within 1/(4q^2) of it in the cosine. Rounded filters do the same up to rounding.",
  "every cutoff and sample rate, every quality above 1/2, every past input and state; floats: every finite coefficient set with complex poles inside 1 - 2^-8",
  "the tail of the response after every possible past",
  [BW+":lowpass", BW+":highpass", BW+":allpass", BW+":notch", BW+":bell_boost_only", BW+":low_shelf_boost_only", BQ+":process"])
p("Where a comb resonates",
  "Let g be what one trip round a comb leaves of a steady tone: the feedback's size times the one-pole low-pass at that pitch. The comb settles on a tone of strength between 1/(1+g) and 1/(1-g). With positive feedback it reaches 1/(1-g) once for each multiple i of (sample rate)/(buffer length) up to half the sample rate, at most a quarter of that spacing below the multiple: exactly on it without dampening, strictly below it with dampening (except at half the sample rate). With negative feedback the same holds at the odd multiples of half the spacing. Dampening leaves g the smaller the higher the tone, from the feedback itself at 0 Hz to feedback*(1-d)/(1+d) at half the sample rate, so each partial is weaker than the one below it.",
  "every buffer length and content, every dampening in [0,1), every feedback in (-1,1) other than 0, every frequency, every partial",
  "a steady state over every pitch and buffer length",
  [CB+":tick", CB+":set_dampening", CB+":set_feedback"])
p("Delay effects run in floats answer a tone as the exact ones do",
  "A comb in float arithmetic (finite settings, dampening in [0,1), feedback in (-1,1)), from any bounded finite contents, fed floats within e of a tone of amplitude a, ends up within e/(1-|feedback|) + room*2^-21/((1-dampening)(1-|feedback|)) of that tone scaled and shifted by the transfer function of the comb; at each partial of C185 the scale is a/(1-g). An all-pass ends up within 3e + room*2^-20 of the tone scaled and shifted by its transfer function (the one of C137).",
  "every buffer length, word size and content, every frequency, amplitude and rounding of the input tone that leaves room (|input| + room*|feedback| <= room, room a power of two up to 2^98)",
  "a limit over infinitely many rounded ticks for every pitch",
  [CB+":tick", CB+":set_dampening", CB+":set_feedback", AP+":tick"])
p("Periodic in, periodic out",
  "Fed a signal of period P, a stable biquad, a comb (dampening and |feedback| below one) and a delay all-pass converge, whatever they held before, to an output of period P, and over one period that output sums to the gain at direct current times the sum of the input. Run in floats, each ends up repeating exactly, bit for bit, in a cycle of a whole number of input periods; so does a voice made of a functional oscillator and a biquad.",
  "every period, every periodic input, every starting state; floats: every state and input, stable or not, special values included",
  "a limit over infinitely many samples, for every periodic input",
  [BQ+":process", CB+":tick", AP+":tick", OF+":next"])
p("sinh and cosh are as accurate as the exponential",
  "With an exp of relative error d, for finite |x| <= 80, sinh and cosh in float arithmetic are finite and within (d + 2^-21)*cosh(x) of the real functions, and cosh^2 - sinh^2 is within 5(d + 2^-21)*cosh(x)^2 of 1.",
  "every finite float up to 80 in magnitude, every exp meeting the contract",
  "all floats, all exponentials",
  [FM+":sinh", FM+":cosh"])
p("Clipping, panning and crossfading make no steps of their own",
  "digital_clip is odd bit for bit, returns the nearest number in [-1,1] and brings no two samples further apart. When the position of a crossfade or a mono pan turns by t and its signals move by at most d, the output moves by at most d plus t/2 times the distance of the two signals (times the signal for the pan), plus 2^-20 of the level for rounding; equal-power gains move by at most sqrt(t/2) with an exact square root.",
  "every pair of positions in [-1,1], every finite signal up to 2^98",
  "all pairs of positions and all quadruples of samples",
  [CL+":digital_clip", ST+":crossfade_correlated_unchecked", ST+":mono_pan", ST+":mono_pan_unchecked", ST+":equal_power_pan_unchecked"])
p("A count of samples survives its conversion to time",
  "A whole number of samples converted to seconds and back (up to 2^20 samples) or to milliseconds and back (up to 2^19) is off by at most 2^-22 (2^-21) of itself and rounds to the same number; the four conversions never reverse the order of their arguments.",
  "every count, every finite sample rate from 1 to 2^40; monotonicity for all finite floats and positive rates",
  "every count with every sample rate",
  [DU+":samples_to_seconds", DU+":seconds_to_samples", DU+":samples_to_millis", DU+":millis_to_samples"])
p("How far an envelope moves in one sample",
  "With a power function good to e, the first sample of an attack is the attack rate (one over the attack in samples) to the power 1/slope, to within e; an attack of slope 20 up to 65536 samples long therefore starts with a jump above 9/16 - e. Gated on only when idle, no two consecutive samples differ by more than the larger of the steps of t^(1/slope) and t^slope over the largest rate h (h^p for p <= 1, p*h*(1+h)^(p-1) for p >= 1), plus 2e + 2^-21.",
  "every envelope with times of at least one sample and slopes up to 20, every history of gates and ticks that opens the gate only when idle, every powf meeting the contract",
  "all histories of gates",
  [EN+":tick", EN+":trigger_on", EN+":next_attack", EN+":next_decay", EN+":next_release"])
p("Simpson integration converges to the integral",
  "As the number of intervals N grows, simpsons_rule tends to the integral of a smooth function; on even N the error falls at least with the square of N.",
  "every integrand with a bounded second derivative, every interval, every N from 4 on",
  "all smooth functions and the limit over all N",
  [FI+":simpsons_rule"])
p("A flanger never blows up",
  "A delay line read with read_lerp_wrapped_at at an offset that moves in any way inside the buffer, with the read times a feedback g (also moving) added to the input and written back, never fails; with |g| <= c and inputs up to A it stays within any B with (A + c*B)(1 + 2^-21) + 2^-140 <= B for ever, and without input the reads of pass k through the buffer are at most c^k times the level, up to rounding and 2^-119.",
  "every buffer up to 2^20 samples, every finite sequence of inputs, feedbacks and offsets in range",
  "all sequences of offsets",
  [DL+":read_lerp_wrapped_at", DL+":write_and_advance"])
p("Tones beyond half the sample rate fold",
  "With no anti-aliasing, a sine oscillator tuned to f + sr puts out the samples of one tuned to f, and one tuned to sr - f those of f upside down.",
  "every f below sr, every sr in the normal range, every call",
  "all frequencies and any number of calls",
  [ PA+":set_freq_unchecked", PA+":next_value", OF+":next_sine", OF+":next_tri"])
p("A low-pass works however low its cutoff",
  "For every positive cutoff up to 0.318 sr and moderate q, the float low-pass answers a click with a bounded ring and passes constants.",
  "every cutoff, q and sample rate of the range, every sample",
  "all cutoffs; the growth shows only after tens of thousands of samples",
  [BW+":lowpass", BW+":setup_coeffs", BQ+":process"])
p("Filters act at the cutoff asked for up to half the sample rate",
  "For every cutoff below sr/2 the frequency at which low-pass and high-pass turn by a quarter, the all-pass by a half and the notch blocks is within 5 percent of the cutoff asked for (exact arithmetic).",
  "every fc below sr/2, every q and sr",
  "all cutoffs; the tests try a few low ones",
  [BW+":setup_coeffs", BW+":notch", "src/float/math.rs:fast_tan"])
p("A filter sweep driven by the envelope never fails",
  "An oscillator into a filter into an amplifier, the envelope moving the level and the cutoff (from f to 2f, coefficients computed anew before every sample), played by any calls on the oscillator and moderate ones on the envelope, with the kind of filter, q from 1/8 to 1 and gain up to 64 chosen anew before every sample: no step ever faults, every sample is finite and at most 2^33, the clipper after it gives a number of [-1,1], and until a key is pressed every sample is exactly zero.",
  "every f from sr/275 to sr/8, every sequence of calls, every number of samples",
  "an invariant of the composition of oscillator, envelope, filter design and filter over unbounded time, rounding included",
  [OF+":next",EN+":tick",BW+":setup_coeffs",BW+":lowpass",BQ+":process",CL+":digital_clip"])
p("How late the filters are",
  "In exact arithmetic, a value moving at a constant speed comes out of every design, from whatever state it was in, as the value some fixed number of samples before, times the gain at DC, with an error tending to zero: 1/(2kq) samples late for the low-pass and the notch, 1/(kq) for the all-pass, (1-gain)/(2kq) for a bell (ahead when it boosts by more than 1), by the difference of the middle coefficients for a shelf; after the high-pass it is silence. A comb over L samples with feedback g and dampening d raises it by 1/(1-g) and is (L + g d/(1-d))/(1-g) samples late, the all-pass 4L. Here k is the warped cutoff, and 1/(2kq) is at most sr/(2 pi fc q), and at least 399/400 of it for fc up to sr/40.",
  "every cutoff, q, gain, sample rate, start state, start value and speed",
  "a limit for every state and every filter parameter",
  [BW+":setup_coeffs",BW+":lowpass",BW+":notch",BW+":allpass",BW+":highpass",BW+":bell_boost_only",BW+":low_shelf_boost_only",BQ+":process",CB+":tick",AP+":tick"])
p("Effects in series may be put in any order",
  "In exact arithmetic, any number of biquads, delay lines, combs and all-passes in series, nothing in their states and buffers, answer every signal without fault, and the answer is the same, sample by sample, whatever order the stages are put in; and so does a chain of delay lines, combs and all-passes run tick by tick over separate slices of one memory.",
  "every chain, every permutation of it, every input, every coefficient, setting, buffer length and cursor",
  "all permutations of all chains, for all signals",
  [BQ+":process",DL+":read",CB+":tick",AP+":tick"])
p("A chain of effects is known by its impulse response",
  "In exact arithmetic, what a chain of biquads, delay lines, combs and all-passes with nothing in it answers to any signal is the sum over k of its impulse response at k times the signal k samples before; two chains with the same impulse response do the same to every signal; and the most such a chain makes of a signal within B is exactly B times the sum of the magnitudes of its impulse response.",
  "every chain, every signal, every coefficient, setting, buffer length and cursor",
  "one response stands for the answers to all signals; the worst signal is among infinitely many",
  [BQ+":process",DL+":read",CB+":tick",AP+":tick"])
p("Clearing the buffer silences the effect",
  "get_ptr_slice_mut of a delay line, comb or all-pass hands out exactly the buffer it works in; writing zeros through it never fails and touches nothing else; and from then on the effect, fed with silence, is silent for ever.",
  "every effect, every state its use can leave it in, every buffer, every number of samples afterwards",
  "what survives a clearing shows only after a whole buffer length of silence, and only for some earlier inputs",
  [DL+":get_ptr_slice_mut",CB+":get_ptr_slice_mut",AP+":get_ptr_slice_mut",CB+":tick",AP+":tick"])
p("Different settings make different effects",
  "In exact arithmetic, the first three samples of what a low-pass, high-pass, all-pass or notch answers to a click determine its cutoff and its q, and those of a bell (of a gain other than one, boosting or cutting) its cutoff, its q and its gain: no two settings at one sample rate make the same filter. A bell of gain one returns what it is fed with, whatever its other settings. The answer of a comb to a click tells the length of its buffer, its dampening and its feedback, unless the feedback is 0 or the dampening 1, when it is a delay line.",
  "every pair of positive cutoffs, qs and gains, every positive sample rate",
  "a collision of two settings is one pair among infinitely many",
  [BW+":setup_coeffs",BW+":lowpass",BW+":highpass",BW+":allpass",BW+":notch",BW+":bell_boost_only",BW+":bell_cut_only",BQ+":process",CB+":tick",CB+":set_dampening",CB+":set_feedback"])
p("Effects lose nothing",
  "In exact arithmetic, a chain of biquads, delay lines, combs and all-passes with nothing in it makes different signals of different signals, unless a biquad in it has no feed-forward at all, when it makes silence of everything; every filter design has some; and a biquad with b0 other than zero is undone by another biquad sample for sample. In floats an all-pass does make the same of some different signals.",
  "every chain, every pair of signals, every coefficient, setting, buffer length and cursor",
  "that no pair of signals is confused is a statement about all pairs of infinite signals",
  [BQ+":process",DL+":read",CB+":tick",AP+":tick",BW+":lowpass",BW+":highpass",BW+":allpass",BW+":notch"])
p("Latency",
  "What comes out of a biquad, delay line, comb or all-pass at some time depends, bit for bit and from any state, on nothing that goes in later; a delay line or comb moreover holds everything back for at least the length of its buffer. In exact arithmetic the latency of a chain with nothing in it is exactly the sum of the lengths of its delay lines and combs, as long as no biquad in it has a b0 of zero.",
  "every chain, every pair of signals, every time of the first difference, every coefficient, setting, buffer length and cursor",
  "that nothing later matters is a statement about all pairs of infinite signals",
  [BQ+":process",DL+":read",CB+":tick",AP+":tick"])
p("A comb with a feedback of one or more",
  "In floats a comb set to no dampening and a feedback of one, and fed with silence, repeats the finite samples it holds for ever, bit for bit up to the sign of a zero, whatever its settings were before. In exact arithmetic, at a feedback of one and any dampening but one, the sum of the buffer and a share d/(1-d) of the filter state is always what it was at first plus the sum of all inputs since. With a feedback of one or more and a dampening in [0,1), a signal that is never negative and whose sum is unbounded drives the output of a silent comb beyond every bound, and a click in it never dies away.",
  "every buffer length, cursor and content, every dampening and feedback in range, every input, every time",
  "for ever, and beyond every bound, are statements about infinite runs; rounding might have worn the loop down",
  [CB+":tick",CB+":set_dampening",CB+":set_feedback"])
p("A comb with a dampening of one",
  "Once its dampening is set to one, a comb returns its buffer and then every input after the length of the buffer, each with the same constant added: the filter state of that moment times the feedback. So it is a plain delay line, whatever the feedback, only if the filter was at rest. This holds exactly, and in floats bit for bit as long as nothing overflows (from rest up to the sign of a zero).",
  "every buffer length, cursor and content, every filter state and feedback, every input, every time",
  "the constant depends on the history before and stays for ever",
  [CB+":tick",CB+":set_dampening"])
p("Panned signals in mono",
  "In exact arithmetic the channels of mono_pan add up to the sample and carry (1+a^2)/2 of its power, while those of stereo_pan, fed one sample on both sides, add up to the sample times the root of 1 + sqrt(1-a^2): right at the sides, louder the nearer the middle, by the root of two in it. Under both laws, further right means strictly softer on the left and louder on the right. In floats the channels of mono_pan add up to the sample to 2^-21 of it.",
  "every position in [-1,1], every sample (in floats up to 2^98 in size)",
  "continuum of positions; all floats",
  ["src/stereo.rs:mono_pan_unchecked","src/stereo.rs:stereo_pan_unchecked","src/stereo.rs:equal_power_pan_unchecked"])
with open('/verif/properties.jsonl','w') as f:
    for x in P: f.write(json.dumps(x)+"\n")
print(len(P))
