{"id": "C01", "title": "Checked element access is safe and exact", "statement": "On a MemorySlice made from a live buffer, get(i) and assign(i,v) never perform an out-of-bounds access and never panic. get(i) is Ok(buffer[i]) exactly when i < len() and Err(IndexOutOfBound) otherwise; assign(i,v) is Ok and changes exactly cell i to v when i < len(), and is Err(IndexOutOfBound) leaving all memory unchanged otherwise.", "quantifier": "every memory, every slice inside it, every usize index, every value", "why_tests_cant": "needs every length/index pair, including indices near usize::MAX", "anchors": ["src/memory/memory_slice.rs:get", "src/memory/memory_slice.rs:assign", "src/memory/memory_slice.rs:get_unchecked", "src/memory/memory_slice.rs:assign_unchecked"]}
{"id": "C02", "title": "Reads see the latest write through any alias", "statement": "After any sequence of checked assigns through any number of copies / overlapping sub-slices of one buffer, get through any handle returns the value of the last successful assign to that buffer cell, or its initial contents if there was none.", "quantifier": "every initial buffer, every set of aliasing handles, every history of assigns", "why_tests_cant": "quantifies over unbounded histories and aliasing patterns", "anchors": ["src/memory/memory_slice.rs:assign", "src/memory/memory_slice.rs:get", "src/memory/memory_slice.rs:get_sub_slice", "src/memory/memory_slice.rs:from_slice_mut"]}
{"id": "C03", "title": "get_wrapped is indexing modulo the length", "statement": "On a live non-empty slice get_wrapped(i) returns buffer[i mod len] (Euclidean) for every isize i: it is periodic with period len, agrees with get on 0..len, and never panics or leaves the buffer. On an empty slice it panics and never reads.", "quantifier": "every non-empty slice and every isize index, negative and extreme ones included", "why_tests_cant": "infinite length/index combinations, extreme isize values", "anchors": ["src/memory/memory_slice.rs:get_wrapped", "src/memory/memory_slice.rs:get_wrapped_unchecked"]}
{"id": "C04", "title": "get_slice_of_four_wrapped returns four consecutive wrapped samples", "statement": "On a live non-empty slice get_slice_of_four_wrapped(i) returns [buffer[i], buffer[i+1], buffer[i+2], buffer[i+3]] with all indices modulo len, for every isize i, and never reads outside the buffer.", "quantifier": "every non-empty slice (also shorter than 4) and every isize index", "why_tests_cant": "the failing indices (isize overflow of index + 3 in a release build) are at the edge of a 2^64 range", "anchors": ["src/memory/memory_slice.rs:get_slice_of_four_wrapped"]}
{"id": "C05", "title": "A sub-slice never escapes its parent", "statement": "If get_sub_slice(offset, n) succeeds on a live slice, the result has length n, lies wholly inside the parent, and its element i is the parent's element offset + i.", "quantifier": "every parent slice, every usize offset and length, both overflow-check settings", "why_tests_cant": "the escaping arguments need usize overflow", "anchors": ["src/memory/memory_slice.rs:get_sub_slice"]}
{"id": "C06", "title": "Every window inside a slice can be taken as a sub-slice", "statement": "get_sub_slice(offset, n) succeeds for every window with offset < len and offset + n <= len; it fails with IndexOutOfBound for offset >= len and with LengthOutOfBound for windows that overrun.", "quantifier": "every parent slice, every offset and length", "why_tests_cant": "must hold at the boundary for every length", "anchors": ["src/memory/memory_slice.rs:get_sub_slice"]}
{"id": "C07", "title": "Checked interpolated read is memory safe for every float", "statement": "MemorySlice::lerp(x) on a live slice never reads outside the slice, for every f32 x including NaN, infinities, negative zero and values past 2^24; for a non-empty slice it also never panics.", "quantifier": "every slice length, every one of the 2^32 f32 bit patterns, both usize widths and overflow-check settings", "why_tests_cant": "rounding of usize to f32 near the end of big buffers cannot be covered by samples", "anchors": ["src/memory/memory_slice.rs:lerp"]}
{"id": "C08", "title": "Checked interpolated read at a whole index is the stored sample", "statement": "lerp(i as f32) returns the sample stored at i for every valid index i < len, the last one included.", "quantifier": "every length up to 2^24 and every index, every finite buffer contents", "why_tests_cant": "depends on float rounding of len - 1 + 10*EPSILON for every length", "anchors": ["src/memory/memory_slice.rs:lerp", "src/float/interpolation.rs:lerp_unchecked"]}
{"id": "C09", "title": "Checked interpolated read rejects out-of-range positions", "statement": "lerp(x) is Err(IndexOutOfBound) for every x < 0 and for every x > len - 1 (and for +infinity), and Ok for every 0 <= x < len - 1.", "quantifier": "every slice length up to 2^24 and every non-NaN f32 position", "why_tests_cant": "boundary of a float comparison for every length", "anchors": ["src/memory/memory_slice.rs:lerp"]}
{"id": "C10", "title": "lerp_wrapped interpolates circularly", "statement": "On a live non-empty slice, lerp_wrapped(x) reads only inside the buffer, blends buffer[floor x mod len] and buffer[(floor x + 1) mod len], and equals get_wrapped(i) when x is the whole number i.", "quantifier": "every non-empty slice with finite samples, every f32 position in the exactly representable integer range", "why_tests_cant": "all lengths, positions and wrap-arounds", "anchors": ["src/memory/memory_slice.rs:lerp_wrapped", "src/float/interpolation.rs:lerp_unchecked"]}
{"id": "C11", "title": "lagrange_wrapped passes through the stored samples", "statement": "lagrange_wrapped(x, window) at a whole position x = i returns the sample buffer[i mod len].", "quantifier": "every non-empty buffer, every window size, every whole position", "why_tests_cant": "an off-by-one between window origin and evaluation point is invisible to finiteness tests", "anchors": ["src/memory/memory_slice.rs:lagrange_wrapped", "src/float/interpolation.rs:lagrange"]}
{"id": "C12", "title": "lagrange_wrapped stays in the buffer and does not panic", "statement": "On a live non-empty slice lagrange_wrapped(x, window) never reads outside the buffer and never panics, for every finite moderate x and every window size >= 2.", "quantifier": "every non-empty slice, every window size, every position with |x| < 2^23", "why_tests_cant": "loops over window sizes; asserts on float comparison", "anchors": ["src/memory/memory_slice.rs:lagrange_wrapped", "src/float/interpolation.rs:lagrange"]}
{"id": "C13", "title": "lagrange_four_points_wrapped interpolates between neighbours of the position", "statement": "lagrange_four_points_wrapped(x) evaluates the cubic through the four wrapped samples starting at floor(x) at the fractional part of x; in particular at a whole position i it returns buffer[i mod len].", "quantifier": "every non-empty buffer and every position", "why_tests_cant": "only positions below 1.0 behave; sampling near 0 hides it", "anchors": ["src/memory/memory_slice.rs:lagrange_four_points_wrapped", "src/float/interpolation.rs:lagrange_only_4_elements"]}
{"id": "C14", "title": "null slices never serve data", "statement": "A slice from null()/null_mut()/Default has length 0: get and assign on it return IndexOutOfBound for every index, get_sub_slice fails for every argument, and no checked access touches memory.", "quantifier": "every index, offset, length and value", "why_tests_cant": "all indices", "anchors": ["src/memory/memory_slice.rs:null", "src/memory/memory_slice.rs:null_mut", "src/memory/memory_slice.rs:default"]}
{"id": "C15", "title": "A delay line delays by exactly its length", "statement": "For a delay line on a live buffer of length L >= 1, reading and then writing each sample returns, at step n, the sample written at step n - L (the initial buffer contents for n < L), bit for bit.", "quantifier": "every L >= 1, every initial buffer, every input sequence of any length", "why_tests_cant": "unbounded histories and lengths", "anchors": ["src/delay_line.rs:read", "src/delay_line.rs:write_and_advance"]}
{"id": "C16", "title": "A delay line never leaves its buffer", "statement": "Any history of read, write_and_advance, advance, read_wrapped_at and change_buffer calls on live non-empty buffers never reads or writes outside the current buffer and never panics.", "quantifier": "every history of API calls, every buffer length", "why_tests_cant": "needs histories that swap in a shorter buffer at the wrong moment", "anchors": ["src/delay_line.rs:write_and_advance", "src/delay_line.rs:advance", "src/delay_line.rs:read", "src/delay_line.rs:change_buffer"]}
{"id": "C17", "title": "read_wrapped_at(-k) is the sample written k steps ago", "statement": "After any history of writes, read_wrapped_at(-k) returns the k-th most recent written sample for 1 <= k <= min(L, number of writes); more generally read_wrapped_at(d) is the cell d steps after the cursor modulo L.", "quantifier": "every L, every history, every offset whose sum with the cursor is an isize", "why_tests_cant": "unbounded histories", "anchors": ["src/delay_line.rs:read_wrapped_at"]}
{"id": "C18", "title": "Interpolated delay reads agree with whole reads", "statement": "read_lerp_wrapped_at(d as f32) equals read_wrapped_at(d) for every whole offset d, whenever cursor and offset are exactly representable and the samples are finite.", "quantifier": "every buffer length below 2^23, every history, every whole offset below 2^23", "why_tests_cant": "all positions including wrap-around", "anchors": ["src/delay_line.rs:read_lerp_wrapped_at"]}
{"id": "C19", "title": "Lagrange delay reads agree with whole reads", "statement": "read_lagrange_wrapped_at(d as f32) returns the sample that read_wrapped_at(d) returns for whole d.", "quantifier": "every history and whole offset", "why_tests_cant": "the window is filled by a loop whose origin is misaligned for every buffer", "anchors": ["src/delay_line.rs:read_lagrange_wrapped_at", "src/memory/memory_slice.rs:lagrange_wrapped"]}
{"id": "C20", "title": "Comb output is its own input path delayed by the buffer length", "statement": "Comb::tick returns at step n, bit for bit, the value computed and stored at step n - L: input[n-L] + filter_state[n-L]*feedback, with filter_state the one-pole low-pass of the outputs; the first L outputs are the initial buffer.", "quantifier": "every buffer length >= 1, every input sequence, every feedback/dampening setting, every n", "why_tests_cant": "unbounded histories", "anchors": ["src/comb.rs:tick", "src/comb.rs:new", "src/delay_line.rs:write_and_advance"]}
{"id": "C21", "title": "Comb with default settings is bounded in float arithmetic", "statement": "With the constructor's settings and a zeroed buffer, if every input satisfies |x| <= M (M finite with 2M not overflowing) then every output is finite and |y| <= 2M, forever, in IEEE single precision with rounding.", "quantifier": "every buffer length, every bounded input sequence, every number of ticks", "why_tests_cant": "infinite-horizon stability with rounding", "anchors": ["src/comb.rs:tick", "src/comb.rs:new"]}
{"id": "C22", "title": "Comb is bounded for every stable setting", "statement": "In exact arithmetic, for every dampening in [0,1] and |feedback| < 1, inputs bounded by M give outputs bounded by M/(1-|feedback|) forever from a zeroed buffer.", "quantifier": "every dampening, feedback, buffer length, bounded input sequence and time", "why_tests_cant": "infinite horizon, continuous parameters", "anchors": ["src/comb.rs:tick", "src/comb.rs:set_dampening", "src/comb.rs:set_feedback"]}
{"id": "C23", "title": "Comb without dampening is a geometric echo", "statement": "With dampening 0, in exact arithmetic, y[n] = x[n-L] + feedback*y[n-L]; an impulse produces echoes feedback^k at times (k+1)L and zero elsewhere.", "quantifier": "every feedback, buffer length, input and time", "why_tests_cant": "unbounded time", "anchors": ["src/comb.rs:tick", "src/comb.rs:set_dampening"]}
{"id": "C24", "title": "AllPass obeys its difference equation", "statement": "AllPass::tick returns at step n exactly -input[n] + w[n-L], where w[n] = input[n] + 0.5*w[n-L] is the stored value (initial buffer for n < L), bit for bit in float arithmetic; in exact arithmetic y[n] - y[n-L]/2 = -x[n] + (3/2)x[n-L].", "quantifier": "every buffer length, initial contents, input sequence and time", "why_tests_cant": "unbounded histories", "anchors": ["src/all_pass.rs:tick"]}
{"id": "C25", "title": "AllPass output is bounded in float arithmetic", "statement": "From a zeroed buffer, inputs with |x| <= M (3M not overflowing) give finite outputs with |y| <= 3M (rounded), forever, with IEEE rounding.", "quantifier": "every buffer length, bounded input and time", "why_tests_cant": "infinite horizon with rounding", "anchors": ["src/all_pass.rs:tick"]}
{"id": "C26", "title": "AllPass has unit gain at every frequency", "statement": "The AllPass filter preserves the energy of a unit impulse (its magnitude response is 1 at all frequencies), as an all-pass filter must.", "quantifier": "every buffer length; infinite impulse response", "why_tests_cant": "needs the whole infinite response", "anchors": ["src/all_pass.rs:tick"]}
{"id": "C27", "title": "Biquad::process realises the second-order difference equation", "statement": "In exact arithmetic, from a new Biquad with fixed coefficients the outputs satisfy y[n] = b0 x[n] + b1 x[n-1] + b2 x[n-2] - a1 y[n-1] - a2 y[n-2] for all n (terms before the start are zero).", "quantifier": "every coefficient set, every input sequence, every n", "why_tests_cant": "unbounded sequences", "anchors": ["src/biquad/mod.rs:process", "src/biquad/mod.rs:new"]}
{"id": "C28", "title": "Biquad is linear and time invariant", "statement": "In exact arithmetic the response to c*x + d*u is c*y + d*v, and delaying the input by k samples delays the output by k samples.", "quantifier": "every coefficient set, inputs, scalars, delays", "why_tests_cant": "unbounded sequences", "anchors": ["src/biquad/mod.rs:process"]}
{"id": "C29", "title": "A NaN input poisons a biquad forever", "statement": "Once a NaN sample has been processed (or a coefficient b0 is NaN), every later output is NaN, whatever the later inputs and coefficients; only constructing a new Biquad recovers.", "quantifier": "every float coefficient set, every later history including coefficient updates", "why_tests_cant": "unbounded later histories", "anchors": ["src/biquad/mod.rs:process"]}
{"id": "C30", "title": "A fresh biquad with zero coefficients is silent", "statement": "Biquad::new(BiquadCoeffs::new()) outputs zero for every finite input sequence, and any biquad with finite coefficients outputs zero for zero input from rest.", "quantifier": "every finite float input sequence", "why_tests_cant": "all inputs, unbounded time, signed zeros", "anchors": ["src/biquad/mod.rs:process", "src/biquad/butterworth.rs:new"]}
{"id": "C31", "title": "Low-pass has unit DC gain and blocks Nyquist", "statement": "For every fc, q, sr with non-degenerate denominators, lowpass coefficients give, in exact arithmetic, gain exactly 1 at DC and exactly 0 at Nyquist.", "quantifier": "every parameter triple", "why_tests_cant": "continuous parameter space", "anchors": ["src/biquad/butterworth.rs:lowpass"]}
{"id": "C32", "title": "High-pass blocks DC and has unit Nyquist gain", "statement": "For every fc, q, sr with non-degenerate denominators, highpass coefficients give, in exact arithmetic, gain exactly 0 at DC and exactly 1 at Nyquist.", "quantifier": "every parameter triple", "why_tests_cant": "continuous parameter space", "anchors": ["src/biquad/butterworth.rs:highpass"]}
{"id": "C33", "title": "Biquad all-pass has unit magnitude everywhere", "statement": "The allpass coefficients give |H(e^{jw})| = 1 for every real frequency w, in exact arithmetic.", "quantifier": "every parameter triple and every frequency", "why_tests_cant": "continuous parameters and frequency", "anchors": ["src/biquad/butterworth.rs:allpass"]}
{"id": "C34", "title": "Notch passes DC and Nyquist and kills its centre", "statement": "The notch coefficients give gain 1 at DC and Nyquist and gain 0 at the frequency w with cos w = (1-k^2)/(1+k^2), in exact arithmetic.", "quantifier": "every parameter triple", "why_tests_cant": "continuous parameters", "anchors": ["src/biquad/butterworth.rs:notch"]}
{"id": "C35", "title": "Filter designs are stable", "statement": "For every fc with 0 < pi*fc/sr and q > 0, the lowpass, highpass, allpass, notch and boost designs have both poles strictly inside the unit circle, in exact arithmetic; so their free response decays to zero.", "quantifier": "every positive parameter triple; all time", "why_tests_cant": "continuous parameters, infinite horizon", "anchors": ["src/biquad/butterworth.rs:lowpass", "src/biquad/butterworth.rs:highpass", "src/biquad/butterworth.rs:allpass", "src/biquad/butterworth.rs:notch", "src/biquad/butterworth.rs:bell_boost_only", "src/biquad/butterworth.rs:low_shelf_boost_only"]}
{"id": "C36", "title": "Bell cut undoes bell boost", "statement": "For every gain g > 0, filtering with bell(+g) and then with bell(-g) from rest reproduces the input exactly, in exact arithmetic; the same for low_shelf.", "quantifier": "every parameter set and every input sequence", "why_tests_cant": "unbounded inputs, continuous parameters", "anchors": ["src/biquad/butterworth.rs:bell", "src/biquad/butterworth.rs:bell_boost_only", "src/biquad/butterworth.rs:bell_cut_only", "src/biquad/butterworth.rs:low_shelf"]}
{"id": "C37", "title": "Shelf and bell gains at the band edges", "statement": "low_shelf(+g) has gain g at DC and 1 at Nyquist; bell(+g) has gain 1 at DC and Nyquist and g at its centre frequency, in exact arithmetic.", "quantifier": "every parameter set", "why_tests_cant": "continuous parameters", "anchors": ["src/biquad/butterworth.rs:low_shelf_boost_only", "src/biquad/butterworth.rs:bell_boost_only"]}
{"id": "C38", "title": "Raw word conversion is a bit-exact bijection", "statement": "from_raw_word(x.to_raw_word()) is x bit for bit for every f32, and from_raw_word(w).to_raw_word() = w for every u32 w; the byte loop never overflows.", "quantifier": "all 2^32 bit patterns", "why_tests_cant": "exhaustive over NaN payloads and subnormals", "anchors": ["src/float/conversion.rs:to_raw_word", "src/float/conversion.rs:from_raw_word"]}
{"id": "C39", "title": "Component conversion round-trips", "statement": "from_f32_components(x.to_f32_components()) = x for every f32/u32 bit pattern, and to(from(c)) = c for every c whose mantissa fits 23 bits.", "quantifier": "all bit patterns and all component triples", "why_tests_cant": "exhaustive", "anchors": ["src/float/conversion.rs:to_f32_components", "src/float/conversion.rs:from_f32_components"]}
{"id": "C40", "title": "Components denote the IEEE value", "statement": "For every finite f32 the components satisfy value = (-1)^sign * (1.mantissa or 0.mantissa) * 2^(exponent-127 or -126); an oversized mantissa is rejected or leaves the other fields unchanged.", "quantifier": "all finite bit patterns; all component triples", "why_tests_cant": "exhaustive", "anchors": ["src/float/conversion.rs:to_f32_components", "src/float/conversion.rs:from_f32_components"]}
{"id": "C41", "title": "bit_reduce truncates toward zero onto a power-of-two grid", "statement": "For bit_depth d <= 30 and |x| <= 1, bit_reduce(x,d) = Ok(r) where r has the sign of x and |r| is the largest multiple of 2^(d-31) that is <= |x| (r = x when d = 0), with no rounding error.", "quantifier": "every d, every f32 in [-1,1]", "why_tests_cant": "2^30 inputs times 31 depths, exact rounding", "anchors": ["src/float/bit_manipulation.rs:bit_reduce", "src/float/bit_manipulation.rs:bit_reduce_unchecked"]}
{"id": "C42", "title": "bit_reduce is idempotent, odd, monotone and never amplifies", "statement": "On accepted arguments bit_reduce(bit_reduce(x,d),d) = bit_reduce(x,d), bit_reduce(-x,d) = -bit_reduce(x,d), x <= y implies bit_reduce(x,d) <= bit_reduce(y,d), |bit_reduce(x,d)| <= |x| and the error is below 2^(d-31).", "quantifier": "every d, every pair of f32 in [-1,1]", "why_tests_cant": "pairs of 2^30 values", "anchors": ["src/float/bit_manipulation.rs:bit_reduce"]}
{"id": "C43", "title": "bit_reduce reports exactly the documented errors", "statement": "bit_reduce(x,d) is Err(OverBitReduction) iff d > 30, else Err(InputExceedsRange) iff x < -1 or x > 1, else Ok; it never panics. A NaN input is not silently turned into a number.", "quantifier": "every f32 and u8", "why_tests_cant": "all NaNs and depths", "anchors": ["src/float/bit_manipulation.rs:bit_reduce"]}
{"id": "C44", "title": "bit_reduce_exp clears low mantissa bits only", "statement": "For d <= 23 bit_reduce_exp(x,d) = Ok(r) where r has the sign and exponent fields of x and the mantissa of x with the low d bits cleared; |r| <= |x|, idempotent, relative error below 2^(d-23) for normal x; d > 23 is Err(OverBitReduction).", "quantifier": "every f32 bit pattern, every u8", "why_tests_cant": "exhaustive", "anchors": ["src/float/bit_manipulation.rs:bit_reduce_exp", "src/float/bit_manipulation.rs:bit_reduce_exp_unchecked"]}
{"id": "C45", "title": "bit_reduce_exp keeps the class of its input", "statement": "bit_reduce_exp maps NaN to NaN, infinities to themselves and finite values to finite values.", "quantifier": "every f32 bit pattern, every accepted depth", "why_tests_cant": "NaN payload patterns", "anchors": ["src/float/bit_manipulation.rs:bit_reduce_exp"]}
{"id": "C46", "title": "lerp classifies bad arguments", "statement": "lerp(a,b,t) is Err(InputNaN) iff a or b is NaN, else Err(InputInfinite) iff a or b is infinite, else Err(InterpolationRange) iff t is outside [0,1]; otherwise Ok.", "quantifier": "every triple of f32 bit patterns", "why_tests_cant": "2^96 triples", "anchors": ["src/float/interpolation.rs:lerp"]}
{"id": "C47", "title": "lerp returns a number whenever it returns Ok", "statement": "If lerp(a,b,t) is Ok(r) then r is not NaN.", "quantifier": "every triple of f32 bit patterns", "why_tests_cant": "2^96 triples", "anchors": ["src/float/interpolation.rs:lerp"]}
{"id": "C48", "title": "lerp hits its endpoints exactly", "statement": "For finite a and b, lerp(a,b,0) = a and lerp(a,b,1) = b as float values.", "quantifier": "every pair of finite f32", "why_tests_cant": "2^64 pairs", "anchors": ["src/float/interpolation.rs:lerp", "src/float/interpolation.rs:lerp_unchecked"]}
{"id": "C49", "title": "lerp stays within rounding of the segment", "statement": "For finite a, b and t in [0,1], lerp(a,b,t) is finite and differs from the exact (1-t)a + tb by at most a few rounding errors of max(|a|,|b|); in exact arithmetic it lies between a and b.", "quantifier": "every finite a, b, every t in [0,1]", "why_tests_cant": "2^96 triples", "anchors": ["src/float/interpolation.rs:lerp", "src/float/interpolation.rs:lerp_unchecked"]}
{"id": "C50", "title": "lagrange reproduces polynomials", "statement": "In exact arithmetic lagrange(ys, x) equals p(x) for every polynomial p of degree < n sampled at 0..n-1; in particular it returns ys[i] at x = i.", "quantifier": "every n >= 1, every sample vector, every x <= n-1", "why_tests_cant": "all degrees and inputs", "anchors": ["src/float/interpolation.rs:lagrange"]}
{"id": "C51", "title": "lagrange panics exactly on x beyond the last node", "statement": "lagrange(ys,x) on non-empty ys panics iff x is NaN or x > n-1 (as f32), and never otherwise, in float arithmetic.", "quantifier": "every non-empty slice up to 2^24, every f32 x", "why_tests_cant": "all inputs", "anchors": ["src/float/interpolation.rs:lagrange"]}
{"id": "C52", "title": "The four-point kernel equals the general one bit for bit", "statement": "lagrange_only_4_elements([a,b,c,d], x) returns bit for bit the same f32 as lagrange(&[a,b,c,d], x) for every x <= 3.", "quantifier": "every 5-tuple of f32 bit patterns", "why_tests_cant": "2^160 tuples", "anchors": ["src/float/interpolation.rs:lagrange_only_4_elements", "src/float/interpolation.rs:lagrange"]}
{"id": "C53", "title": "Sample/time conversions are mutually inverse", "statement": "seconds_to_samples then samples_to_seconds (and the millisecond pair) returns the argument exactly in exact arithmetic, and within relative error 2^-22 (2^-21 for milliseconds) in float arithmetic when no overflow or underflow occurs.", "quantifier": "every normal f32 argument and sample rate", "why_tests_cant": "2^64 pairs", "anchors": ["src/float/dsp_util.rs:samples_to_seconds", "src/float/dsp_util.rs:seconds_to_samples", "src/float/dsp_util.rs:samples_to_millis", "src/float/dsp_util.rs:millis_to_samples"]}
{"id": "C54", "title": "Simpson integration is exact on low-degree polynomials", "statement": "simpsons_rule::<N>(f,a,b) with N even returns exactly the integral for constant (and up to cubic) f, in exact arithmetic; so si() approximates the sine integral.", "quantifier": "every even N >= 4, every interval, every cubic", "why_tests_cant": "all N, a, b", "anchors": ["src/float/integral.rs:simpsons_rule", "src/float/math.rs:si"]}
{"id": "C55", "title": "fast_tan is accurate on [0,1]", "statement": "In exact arithmetic fast_tan(x) <= tan(x) and tan(x) - fast_tan(x) <= 0.001 for every real x in [0,1]; it is odd and strictly increasing.", "quantifier": "every real x in [0,1]", "why_tests_cant": "continuum of inputs", "anchors": ["src/float/math.rs:fast_tan"]}
{"id": "C56", "title": "tanh saturates like tanh", "statement": "The tanh approximation is odd, bounded by 1 in absolute value and non-decreasing in its argument.", "quantifier": "every real argument", "why_tests_cant": "continuum of inputs", "anchors": ["src/float/math.rs:tanh"]}
{"id": "C57", "title": "sinh and cosh satisfy the hyperbolic identities", "statement": "If exp is exact, sinh and cosh satisfy cosh^2 - sinh^2 = 1, sinh odd, cosh even; in float arithmetic sinh(-x) = -sinh(x) and cosh(-x) = cosh(x) bit for bit for every exp implementation with non-NaN results.", "quantifier": "every argument and exp implementation", "why_tests_cant": "all inputs", "anchors": ["src/float/math.rs:sinh", "src/float/math.rs:cosh"]}
{"id": "C58", "title": "sin_i16 never overflows and stays in range", "statement": "For every i16 phase and every u8 degree sin_i16 returns without overflow or panic, degrees above 4 behave like 4, and the final narrowing to i16 loses nothing; sin_i16_unchecked panics exactly for degree > 4.", "quantifier": "all 65536 phases, all 256 degrees", "why_tests_cant": "exhaustive over phases and every intermediate step", "anchors": ["src/fixed_point/math.rs:sin_i16", "src/fixed_point/math.rs:sin_i16_unchecked"]}
{"id": "C59", "title": "sin_i16 approximates the sine", "statement": "For degree 4 and every phase p, |sin_i16(p,4) - 32768*sin(pi/2 * p/32768)| <= 5.", "quantifier": "all 65536 phases against the real sine function", "why_tests_cant": "compares with a transcendental function", "anchors": ["src/fixed_point/math.rs:sin_i16"]}
{"id": "C60", "title": "fixed_point_sin and the sine oscillator stay in [-1, 1]", "statement": "fixed_point_sin(x) (and fixed_point_cos) returns a value in [-1,1] for every finite x.", "quantifier": "every finite f32", "why_tests_cant": "2^32 inputs", "anchors": ["src/float/math.rs:fixed_point_sin", "src/float/math.rs:fixed_point_cos", "src/oscillator/osc_functional.rs:next_sine"]}
{"id": "C61", "title": "lookup_sin never indexes outside its table", "statement": "lookup_sin(x) never panics, for every f32 x including NaN and infinities, and returns a value with absolute value at most 32768/32767 for finite x.", "quantifier": "every f32", "why_tests_cant": "2^32 inputs with rounding at the table end", "anchors": ["src/float/math.rs:lookup_sin", "src/oscillator/lookup_tables/mod.rs:sine_table"]}
{"id": "C62", "title": "lookup_bl_rect is memory safe", "statement": "lookup_bl_rect(x) never reads outside its 5075-entry table, for every f32 x.", "quantifier": "every f32", "why_tests_cant": "the failing inputs are a handful of bit patterns around 0.25 and 0.75", "anchors": ["src/float/math.rs:lookup_bl_rect", "src/oscillator/lookup_tables/bl_rect.rs:BANDLIMITED_RECT"]}
{"id": "C63", "title": "lookup_bl_rect is bounded and clamps outside (0,1)", "statement": "lookup_bl_rect(x) is 0 for x <= 0 and x >= 1 and NaN, and lies in [-1,1] for every x whose lookup stays in the table; it is >= 0 on the first half and <= 0 on the second half.", "quantifier": "every f32", "why_tests_cant": "2^32 inputs against 5075 table entries", "anchors": ["src/float/math.rs:lookup_bl_rect"]}
{"id": "C64", "title": "sine_table phases never wrap", "statement": "For every table size 1 <= N <= 65535 the generated table entry i is sin_i16 of phase i*(65535/N) - 32767, and no cast wraps or overflows.", "quantifier": "every N, every index", "why_tests_cant": "const-generic parameter", "anchors": ["src/oscillator/lookup_tables/mod.rs:sine_table"]}
{"id": "C65", "title": "Phase accumulator counts modulo 2^32", "statement": "After n calls the phase value is (n*step + shift) mod 2^32 where step = (freq * (2^32/sr)) truncated to u32 in float arithmetic; next_value and next_value_normalized advance identically.", "quantifier": "every freq, sr, shift, number of calls", "why_tests_cant": "unbounded histories", "anchors": ["src/oscillator/phase_accumulator.rs:next_value", "src/oscillator/phase_accumulator.rs:tick"]}
{"id": "C66", "title": "Frequency, rate and shift changes keep phase continuity", "statement": "set_freq_unchecked and set_sr_unchecked never change the current phase: over any history the phase advances at each call by exactly the step of the settings in force at that call, and set_phase_shift(s) offsets all later outputs by s without affecting the counter.", "quantifier": "every history of setter and next calls", "why_tests_cant": "unbounded histories", "anchors": ["src/oscillator/phase_accumulator.rs:set_freq_unchecked", "src/oscillator/phase_accumulator.rs:set_sr_unchecked", "src/oscillator/phase_accumulator.rs:set_phase_shift", "src/oscillator/phase_accumulator.rs:tick"]}
{"id": "C67", "title": "Normalized phase lies in [0,1)", "statement": "next_value_normalized returns a value in [0,1).", "quantifier": "all 2^32 counter values", "why_tests_cant": "only 128 of 2^32 counter values fail", "anchors": ["src/oscillator/phase_accumulator.rs:next_value_normalized"]}
{"id": "C68", "title": "Sawtooth and triangle stay in [-1,1]", "statement": "FunctionalOscillator::next returns a value in [-1,1] for Sawtooth and Triangle, over every history.", "quantifier": "all counter values, histories and settings", "why_tests_cant": "2^32 counter values with rounding", "anchors": ["src/oscillator/osc_functional.rs:next_saw", "src/oscillator/osc_functional.rs:next_tri"]}
{"id": "C69", "title": "Rectangle outputs only -1 and 1", "statement": "FunctionalOscillator::next with Rectangle returns -1.0 or 1.0, +1 exactly in the second half of the cycle.", "quantifier": "all counter values, histories and settings", "why_tests_cant": "the glitch needs one of 128 counter values out of 2^32", "anchors": ["src/oscillator/osc_functional.rs:next_rect"]}
{"id": "C70", "title": "Waveform shapes follow the phase", "statement": "Sawtooth is 2*phase - 1 and triangle rises from -1 to 1 in the first half of the cycle and falls back in the second half; each is monotone in the phase on those ranges.", "quantifier": "all pairs of counter values", "why_tests_cant": "pairs of 2^32 values", "anchors": ["src/oscillator/osc_functional.rs:next_saw", "src/oscillator/osc_functional.rs:next_tri"]}
{"id": "C71", "title": "WavetableOscillator reads only its table", "statement": "WavetableOscillator::next on a live table of length >= 2 never reads outside the table.", "quantifier": "all table lengths, phases, histories", "why_tests_cant": "needs a phase in the last table step, an out-of-bounds read that usually returns garbage silently", "anchors": ["src/oscillator/osc_wavetable.rs:next", "src/memory/memory_slice.rs:lerp_unchecked"]}
{"id": "C72", "title": "set_freq validates its argument", "statement": "SoftPhaseAccumulator::set_freq returns Err(Zero) iff freq == 0, Err(Negative) iff freq < 0 and an error for frequencies above Nyquist or NaN; otherwise the new frequency takes effect.", "quantifier": "every f32 freq", "why_tests_cant": "all inputs", "anchors": ["src/oscillator/phase_accumulator.rs:set_freq"]}
{"id": "C73", "title": "The oscillator frequency is accurate", "statement": "For 0 < freq < sr/2 in the normal range, the phase step differs from the ideal freq*2^32/sr by less than 1 plus a relative error of 2^-22.", "quantifier": "every freq and sr", "why_tests_cant": "2^64 pairs", "anchors": ["src/oscillator/phase_accumulator.rs:new", "src/oscillator/phase_accumulator.rs:tick"]}
{"id": "C74", "title": "Pan position checking", "statement": "mono_pan and stereo_pan return Err(TooLeft) iff amount < -1, Err(TooRight) iff amount > 1, else Ok of the unchecked result.", "quantifier": "every f32 amount and samples", "why_tests_cant": "all inputs", "anchors": ["src/stereo.rs:mono_pan", "src/stereo.rs:stereo_pan"]}
{"id": "C75", "title": "Equal-amplitude gains lie in [0,1] and sum to one", "statement": "For amount in [-1,1] both mono pan gains lie in [0,1] in float arithmetic, are monotone in the amount, and sum to exactly 1 in exact arithmetic (within 2^-24 in floats).", "quantifier": "every f32 amount in [-1,1]", "why_tests_cant": "2^31 inputs with rounding", "anchors": ["src/stereo.rs:mono_pan_unchecked"]}
{"id": "C76", "title": "Panning is mirror symmetric", "statement": "Panning by -a gives the swapped gains of panning by a, bit for bit, for mono and stereo; at the extremes one side is silent and the other is the unchanged sample.", "quantifier": "every f32 amount and sample", "why_tests_cant": "all inputs", "anchors": ["src/stereo.rs:mono_pan_unchecked", "src/stereo.rs:stereo_pan_unchecked", "src/stereo.rs:crossfade_correlated_unchecked"]}
{"id": "C77", "title": "Equal-power panning preserves power", "statement": "With an exact square root, the squared stereo gains sum to 1 for every amount in [-1,1].", "quantifier": "every real amount", "why_tests_cant": "continuum", "anchors": ["src/stereo.rs:stereo_pan_unchecked"]}
{"id": "C78", "title": "digital_clip clamps to [-1,1]", "statement": "digital_clip(x) lies in [-1,1] for every non-NaN x, equals x when x is already inside, is idempotent and monotone, passes NaN through, and never panics.", "quantifier": "every f32 (pairs for monotonicity)", "why_tests_cant": "2^64 pairs", "anchors": ["src/clipping.rs:digital_clip"]}
{"id": "C79", "title": "Soft clippers return a sample for every input", "statement": "tanh_clip, poly_clip and sigmoid_clip return a value in [-1,1] for every non-NaN input.", "quantifier": "every f32", "why_tests_cant": "all inputs", "anchors": ["src/clipping.rs:tanh_clip", "src/clipping.rs:poly_clip", "src/clipping.rs:sigmoid_clip"]}
{"id": "C80", "title": "Decibel conversion reports its error cases", "statement": "to_decibels is Err iff the ratio is < 0; to_decibels_checked is Err(Nan) iff < 0 and Err(Infinite) iff == 0 (either sign of zero); otherwise both are Ok(20*log10(x)). They never return Ok(NaN).", "quantifier": "every f32 and every log10 implementation meeting its contract", "why_tests_cant": "all inputs incl. NaN", "anchors": ["src/decibels.rs:to_decibels", "src/decibels.rs:to_decibels_checked"]}
{"id": "C81", "title": "Decibel and ratio conversions are inverse", "statement": "In exact real arithmetic to_volt_ratio(to_decibels_unchecked(x)) = x for x > 0 and conversely, and both are strictly increasing.", "quantifier": "every real x", "why_tests_cant": "continuum", "anchors": ["src/decibels.rs:to_decibels_unchecked", "src/decibels.rs:to_volt_ratio"]}
{"id": "C82", "title": "Envelope output stays in [0,1]", "statement": "For every history of API calls with non-NaN sustain arguments and finite positive settings, tick returns a value in [0,1], given a powf that returns a non-NaN, non-negative result on non-negative bases.", "quantifier": "every history of trigger_on, trigger_off, reset, setters and tick; every powf meeting the contract", "why_tests_cant": "unbounded histories with rounding", "anchors": ["src/envelope.rs:tick", "src/envelope.rs:next_attack", "src/envelope.rs:next_decay", "src/envelope.rs:next_release"]}
{"id": "C83", "title": "Envelope state changes only along the ADSR graph", "statement": "tick moves Attack only to Attack/Decay, Decay only to Decay/Sustain, Release only to Release/Idle and leaves Idle and Sustain alone; trigger_on always leads to Attack; trigger_off leads from Attack/Decay/Sustain to Release and does nothing in Idle/Release; setters never change the state.", "quantifier": "every reachable state and call", "why_tests_cant": "all histories", "anchors": ["src/envelope.rs:tick", "src/envelope.rs:trigger_on", "src/envelope.rs:trigger_off", "src/envelope.rs:reset"]}
{"id": "C84", "title": "Attack, decay and release finish", "statement": "Left ticking, a triggered envelope reaches Decay, then Sustain, and after trigger_off reaches Idle, each within a bound computed from the rate, provided the per-sample rate is at least 2^-22 and powf(t,_) >= 1 for t >= 1.", "quantifier": "every setting with rate >= 2^-22, every start phase, every powf meeting the contract", "why_tests_cant": "liveness over unbounded ticks with float accumulation", "anchors": ["src/envelope.rs:next_attack", "src/envelope.rs:next_decay", "src/envelope.rs:next_release"]}
{"id": "C85", "title": "Idle and reset are silent, sustain holds", "statement": "In Idle every tick returns 0 until trigger_on; after reset likewise from any state; in Sustain every tick returns the current sustain level until a trigger.", "quantifier": "every state and number of ticks", "why_tests_cant": "unbounded", "anchors": ["src/envelope.rs:tick", "src/envelope.rs:reset"]}
{"id": "C86", "title": "Release starts at the current level and never rises above it", "statement": "After trigger_off the release output never exceeds the level output at the moment of trigger_off, and it is never negative.", "quantifier": "every history, every powf meeting the contract", "why_tests_cant": "history dependent (set_sustain while sustaining)", "anchors": ["src/envelope.rs:trigger_off", "src/envelope.rs:next_release", "src/envelope.rs:set_sustain"]}
{"id": "C87", "title": "Decay stays between sustain and 1", "statement": "During Decay the output is at least the sustain level and at most 1.", "quantifier": "every history, every powf meeting the contract", "why_tests_cant": "rounding of (1-s)+s for every s", "anchors": ["src/envelope.rs:next_decay"]}
{"id": "C88", "title": "Retriggering does not jump", "statement": "trigger_on during Decay, Sustain or Release restarts the attack from the current output level.", "quantifier": "every state", "why_tests_cant": "state dependent", "anchors": ["src/envelope.rs:trigger_on", "src/envelope.rs:next_attack"]}
{"id": "C89", "title": "Time parameters mean seconds", "statement": "Attack/decay/release set to T seconds at rate sr advance the phase by 1/(T*sr) per tick, for every T > 0; only very short times are limited.", "quantifier": "every T and sr", "why_tests_cant": "continuous parameters", "anchors": ["src/envelope.rs:set_time_parameter", "src/envelope.rs:set_attack"]}
{"id": "C90", "title": "Changing the sample rate rescales the envelope", "statement": "After set_sr the attack, decay and release keep their duration in seconds.", "quantifier": "every setting", "why_tests_cant": "all settings", "anchors": ["src/envelope.rs:set_sr"]}
{"id": "C91", "title": "Envelope constructor and setters panic only on degenerate rates", "statement": "new and the time setters panic exactly when 0.5/sr is NaN or exceeds f32::MAX (sr zero, NaN or tiny); set_sustain, set_slope, set_sr, triggers and tick never panic.", "quantifier": "every f32 argument", "why_tests_cant": "all argument combinations", "anchors": ["src/envelope.rs:new", "src/envelope.rs:set_time_parameter", "src/envelope.rs:set_slope"]}
{"id": "C92", "title": "fixed_point_sin follows the real sine", "statement": "For every finite x, fixed_point_sin(x) is within 3/10^4 + |x|/(4*10^6) of the real sine of x.", "quantifier": "every finite f32, every rem_euclid meeting its contract", "why_tests_cant": "a continuum of arguments against a transcendental function", "anchors": ["src/float/math.rs:fixed_point_sin", "src/fixed_point/math.rs:sin_i16"]}
{"id": "C93", "title": "fixed_point_cos follows the real cosine", "statement": "For every finite x, fixed_point_cos(x) is within 4/10^4 + |x|/(2*10^6) of the real cosine of x.", "quantifier": "every finite f32, every rem_euclid meeting its contract", "why_tests_cant": "a continuum of arguments against a transcendental function", "anchors": ["src/float/math.rs:fixed_point_cos"]}
{"id": "C94", "title": "lookup_sin follows the real sine", "statement": "For every finite x, lookup_sin(x) is within 1/10^3 + |x|/10^6 of the real sine of x.", "quantifier": "every finite f32, every rem_euclid meeting its contract", "why_tests_cant": "a continuum of arguments against a transcendental function", "anchors": ["src/float/math.rs:lookup_sin"]}
{"id": "C95", "title": "The sine oscillator is a sine of the phase", "statement": "From every state, next of a sine oscillator succeeds, advances the accumulator once, returns a value in [-32768/32767, 1] within 4/10^4 of sin(2*pi*phase).", "quantifier": "every state, so every history of calls and settings", "why_tests_cant": "2^32 phases times every reachable state", "anchors": ["src/oscillator/osc_functional.rs:next_sine"]}
{"id": "C96", "title": "Functional oscillator over every history", "statement": "After any sequence of next, set_freq, set_phase_shift, reset and waveform changes, a FunctionalOscillator has not failed, its accumulator went through exactly the corresponding calls, and the next output is within 4/10^4 of the ideal waveform in force at the phase reached (rectangle: outside 256 counter units before each edge).", "quantifier": "every initial state and every finite sequence of calls", "why_tests_cant": "call histories are unbounded", "anchors": ["src/oscillator/osc_functional.rs:next", "src/oscillator/phase_accumulator.rs:next_value"]}
{"id": "C97", "title": "A phase shift is a number of turns", "statement": "set_phase_shift(s) moves the phase by s turns, modulo one turn, for every finite s.", "quantifier": "every finite f32 and every accumulator state", "why_tests_cant": "every f32 including negatives and values beyond one", "anchors": ["src/oscillator/osc_functional.rs:set_phase_shift_unchecked", "src/oscillator/phase_accumulator.rs:set_phase_shift"]}
{"id": "C98", "title": "Wavetable oscillator over every history", "statement": "After any sequence of calls the accumulator of a WavetableOscillator went through exactly the corresponding calls and the table is the one given; a failure can only be an out-of-range read of the last table interval.", "quantifier": "every table up to 2^24 samples and every finite sequence of calls", "why_tests_cant": "call histories are unbounded", "anchors": ["src/oscillator/osc_wavetable.rs:next", "src/oscillator/phase_accumulator.rs:next_value"]}
{"id": "C99", "title": "Comb with settings changed while it runs", "statement": "With feedback and dampening set anew before every tick, each tick uses the settings of that tick and loses no stored sample; if |feedback| stays at most F < 1 and dampening within [0,1], a bounded input b keeps the output within b/(1-F).", "quantifier": "every sequence of settings and inputs, every buffer length", "why_tests_cant": "infinitely many setting schedules", "anchors": ["src/comb.rs:set_feedback", "src/comb.rs:set_dampening", "src/comb.rs:tick"]}
{"id": "C100", "title": "change_buffer keeps the cursor and the settings", "statement": "After change_buffer with a buffer longer than the cursor, delay line, comb and all-pass read the new buffer starting at the old cursor and carry over their settings and filter state.", "quantifier": "every cursor, buffer content and input", "why_tests_cant": "every combination of cursor and buffer", "anchors": ["src/delay_line.rs:change_buffer", "src/comb.rs:change_buffer", "src/all_pass.rs:change_buffer"]}
{"id": "C101", "title": "A comb recovers from a NaN sample", "statement": "If one input sample is NaN, then from some tick on the output of the comb is free of NaN again.", "quantifier": "every settings, buffer, input and position of the NaN", "why_tests_cant": "needs all later outputs", "anchors": ["src/comb.rs:tick"]}
{"id": "C102", "title": "An all-pass confines a NaN sample to its cell", "statement": "If one input sample is NaN, the outputs of that tick and of every tick a multiple of the buffer length later are NaN, and all other outputs are unaffected.", "quantifier": "every buffer, input and position of the NaN", "why_tests_cant": "needs all later outputs", "anchors": ["src/all_pass.rs:tick"]}
{"id": "C103", "title": "Every envelope sample is known", "statement": "From trigger_on in Idle or Attack the k-th sample is (k steps of the attack rate)^(1/slope) until it reaches 1; then the decay samples (1 - t^slope)(1 - sustain) + sustain until they reach the sustain level; then the sustain level until trigger_off; then (1 - t^slope) * level until at most 2^-23, returned as 0.", "quantifier": "every setting, every powf, every stage length and every length of the held gate", "why_tests_cant": "the length of a cycle is unbounded", "anchors": ["src/envelope.rs:next_attack", "src/envelope.rs:next_decay", "src/envelope.rs:next_release", "src/envelope.rs:tick", "src/envelope.rs:new"]}
{"id": "C104", "title": "A stage takes the time asked for", "statement": "An attack, decay or release set to S samples lasts between 0.98 S and 1.01 S + 1 ticks, for 1 <= S <= 2^17 (decay to a sustain level of at most 63/64, release from a level of at least 1/64).", "quantifier": "every envelope reached with times of at least one sample and slopes from 1/20 to 20, every S in the range, rounding of the accumulated time included", "why_tests_cant": "depends on accumulated rounding over up to 131072 additions", "anchors": ["src/envelope.rs:set_time_parameter", "src/envelope.rs:next_attack", "src/envelope.rs:next_decay", "src/envelope.rs:next_release"]}
{"id": "C105", "title": "Attack rises, decay and release fall", "statement": "Within an attack no sample is below its predecessor; within a decay or release none is above it, and a decay never goes below the sustain level.", "quantifier": "every envelope reached with times of at least one sample and slopes up to 20, every powf that is monotone in its base", "why_tests_cant": "all reachable states, rounding included", "anchors": ["src/envelope.rs:next_attack", "src/envelope.rs:next_decay", "src/envelope.rs:next_release"]}
{"id": "C106", "title": "Envelope setters are independent", "statement": "new puts each argument into its own setting; each setter changes its own setting only; setting attack outside Attack, decay after the decay, release before the release and sustain in the release do not change the samples of the stage under way.", "quantifier": "every envelope state and every argument", "why_tests_cant": "all states, all arguments, all later samples", "anchors": ["src/envelope.rs:new", "src/envelope.rs:set_attack", "src/envelope.rs:set_decay", "src/envelope.rs:set_sustain", "src/envelope.rs:set_release", "src/envelope.rs:set_slope", "src/envelope.rs:set_sr"]}
{"id": "C107", "title": "Filters act at the requested cutoff", "statement": "For 0 < fc <= 0.318 sr there is a frequency within one thousandth of fc at which low-pass and high-pass have gain q at a quarter turn, the all-pass turns by half a turn, the notch blocks and the bell has its gain (exact arithmetic).", "quantifier": "every fc, q, gain, sr in the range", "why_tests_cant": "a continuum of designs", "anchors": ["src/biquad/butterworth.rs:setup_coeffs", "src/biquad/butterworth.rs:lowpass", "src/biquad/butterworth.rs:highpass", "src/biquad/butterworth.rs:allpass", "src/biquad/butterworth.rs:notch", "src/biquad/butterworth.rs:bell"]}
{"id": "C108", "title": "A stable biquad scales and shifts a cosine", "statement": "Fed with a cosine, a stable biquad approaches the cosine of the same frequency scaled by the magnitude and shifted by the angle of its gain, from every initial state; at its cutoff a low-pass turns a cosine into q times a sine.", "quantifier": "every stable coefficient set, frequency and initial state (exact arithmetic)", "why_tests_cant": "a statement about the limit of infinitely many outputs", "anchors": ["src/biquad/mod.rs:process", "src/biquad/butterworth.rs:lowpass"]}
{"id": "C109", "title": "A stable biquad keeps bounded inputs bounded", "statement": "For a stable biquad there is a factor C so that every input bounded by B gives outputs bounded by C*B for ever (exact arithmetic).", "quantifier": "every stable coefficient set, every bounded input", "why_tests_cant": "all infinite inputs", "anchors": ["src/biquad/mod.rs:process"]}
{"id": "C110", "title": "sinc returns sin(x)/x", "statement": "sinc(x) is within 1/100 of sin(x)/x, and 1 at zero.", "quantifier": "every finite x", "why_tests_cant": "all floats; the error blows up as x approaches zero, where the sine is a multiple of 2^-15", "anchors": ["src/float/math.rs:sinc", "src/float/math.rs:fixed_point_sin"]}
{"id": "C111", "title": "si returns the sine integral", "statement": "si(x) is within 1/10 of the integral of sin(t)/t from 0 to x.", "quantifier": "every finite x with |x| <= 4", "why_tests_cant": "a continuum of inputs and an integral that no test computes; the error comes from swapped Simpson weights", "anchors": ["src/float/math.rs:si", "src/float/integral.rs:simpsons_rule"]}
{"id": "C112", "title": "Correlated crossfade is a linear blend", "statement": "crossfade_correlated_unchecked(a,(x,y)) is (1-a)/2*x+(1+a)/2*y: exactly in exact arithmetic, to 2^-21 of the larger sample in floats; the ends give one sample alone and negating a swaps the inputs bit for bit.", "quantifier": "every a in [-1,1] and every sample pair (in floats up to 2^98 in size)", "why_tests_cant": "all pairs of floats, rounding included", "anchors": ["src/stereo.rs:crossfade_correlated_unchecked", "src/stereo.rs:equal_amplitude_pan_unchecked"]}
{"id": "C113", "title": "Slices made of arrays serve the array", "statement": "A MemorySlice made of part of an array reads element i of that part for i < len and reports OutOfBound otherwise; a write through it changes just that element of the array; as_slice gives back the part; change_slice_unchecked makes one slice serve the samples of another.", "quantifier": "every array, part, index and value", "why_tests_cant": "all memories and indices", "anchors": ["src/memory/memory_slice.rs:from_slice", "src/memory/memory_slice.rs:from_slice_mut", "src/memory/memory_slice.rs:as_slice", "src/memory/memory_slice.rs:change_slice_unchecked"]}
{"id": "C114", "title": "A float biquad never blows up", "statement": "Run in floats from rest, a biquad whose poles keep a margin from the unit circle and from the real axis (product of the distances at least 2^-20) never produces an infinity or a NaN, and its output never exceeds 13 times the largest feed-forward product divided by the margin.", "quantifier": "every finite coefficient set with that margin, every infinite input with feed-forward products between 2^-120 and 2^60", "why_tests_cant": "all infinite runs, the rounding error of every operation included", "anchors": ["src/biquad/mod.rs:process"]}
{"id": "C115", "title": "A float biquad follows the exact one for ever", "statement": "The float output differs from the output of the same filter in exact arithmetic by at most 2^-14 times the largest feed-forward product divided by the squared margin, at every time.", "quantifier": "the same coefficient sets and inputs", "why_tests_cant": "rounding errors are fed back for ever; no finite run shows they do not accumulate", "anchors": ["src/biquad/mod.rs:process"]}
{"id": "C116", "title": "Designs stay stable after rounding", "statement": "With the coefficients as computed in floats, low-pass, high-pass, all-pass, notch, bell and low shelf have both poles inside the unit circle for sr/10000 <= fc <= 0.318 sr and 1/16 <= q <= 64 (cuts: fc from sr/3200, gain from -1/16 to -16 for the bell, -1 to -64 for the shelf).", "quantifier": "every float fc, q, sr, gain in the ranges, every powi within 32 ulp, every sqrt within a factor of two", "why_tests_cant": "about 2^96 designs, rounding included", "anchors": ["src/biquad/butterworth.rs:setup_coeffs", "src/biquad/butterworth.rs:lowpass", "src/biquad/butterworth.rs:highpass", "src/biquad/butterworth.rs:allpass", "src/biquad/butterworth.rs:notch", "src/biquad/butterworth.rs:bell", "src/biquad/butterworth.rs:low_shelf"]}
{"id": "C117", "title": "fast_tan on floats", "statement": "For floats 0 <= x <= 1 fast_tan is at most 2^-17 above and at most 1/1000 + 2^-17 below tan(x), rounding included.", "quantifier": "every float in [0,1], every powi within 32 ulp", "why_tests_cant": "a billion inputs against a transcendental function", "anchors": ["src/float/math.rs:fast_tan"]}
{"id": "C118", "title": "Filters designed and run in floats never blow up", "statement": "A low-pass, high-pass, all-pass or notch designed in floats with sr/2400 <= fc <= 0.318 sr (20 Hz at 48 kHz) and 0.6 <= q <= 2 and run in floats from rest stays finite and below 2^26 times the largest input, for ever; below 2^23 times from sr/600 up.", "quantifier": "every such fc and q, sr from 1 to 2^30, and every infinite input bounded by 2^58", "why_tests_cant": "all designs and all infinite runs, rounding included", "anchors": ["src/biquad/butterworth.rs:setup_coeffs", "src/biquad/butterworth.rs:lowpass", "src/biquad/butterworth.rs:highpass", "src/biquad/butterworth.rs:allpass", "src/biquad/butterworth.rs:notch", "src/biquad/mod.rs:process"]}
{"id": "C119", "title": "Processors on separate buffers do not interfere", "statement": "Any number of delay lines, combs and all-passes on pairwise disjoint buffers, ticked in any order, each produce exactly the samples they would produce alone.", "quantifier": "every rack of processors, every disjoint layout in memory, every schedule and every input", "why_tests_cant": "schedules and layouts are unbounded; a stray write shows only for particular neighbours", "anchors": ["src/delay_line.rs:write_and_advance", "src/comb.rs:tick", "src/all_pass.rs:tick", "src/memory/memory_slice.rs:assign_unchecked"]}
{"id": "C120", "title": "A copy of a delay line is independent", "statement": "DelayLine is Copy: after a copy, ticking one of the two does not change what the other outputs.", "quantifier": "every delay line, every input to either copy", "why_tests_cant": "needs two aliases of one buffer and their interleavings", "anchors": ["src/delay_line.rs:DelayLine", "src/delay_line.rs:write_and_advance", "src/memory/memory_slice.rs:MemorySlice"]}
{"id": "C121", "title": "A slice cannot outlive its buffer", "statement": "Reading through a MemorySlice made by from_slice is never undefined behaviour, whatever happened to the array since.", "quantifier": "every slice, every later state of memory in which the array is gone", "why_tests_cant": "use after free may go unnoticed in a test", "anchors": ["src/memory/memory_slice.rs:from_slice", "src/memory/memory_slice.rs:get"]}
{"id": "C122", "title": "A modulated comb stays bounded in floats", "statement": "With feedback and dampening set anew before every tick, dampening in [0,1] and |x| + 2^e |feedback| <= 2^e at every tick, every output of a comb is finite and at most 2^e in size, rounding included.", "quantifier": "every buffer, every infinite sequence of settings and samples, e <= 126", "why_tests_cant": "all infinite runs with all settings, including the growth of rounding errors", "anchors": ["src/comb.rs:tick", "src/comb.rs:set_feedback", "src/comb.rs:set_dampening"]}
{"id": "C123", "title": "A comb falls silent after its input does", "statement": "A comb whose input is zero from some moment on outputs only zeros from some later moment on.", "quantifier": "every fresh comb, every input bounded by 1 that ends", "why_tests_cant": "needs the limit of an infinite run down to the smallest denormals", "anchors": ["src/comb.rs:tick", "src/comb.rs:new"]}
{"id": "C124", "title": "An all-pass falls silent after its input does", "statement": "Whatever finite samples the buffer holds, with zero input the output of an all-pass is exactly zero after 278 rounds of the buffer.", "quantifier": "every buffer length and contents", "why_tests_cant": "all contents including denormals, unbounded buffer lengths", "anchors": ["src/all_pass.rs:tick"]}
{"id": "C125", "title": "Rounding errors of comb and all-pass do not build up", "statement": "A float comb (settings moving, dampening <= D < 1, |feedback| <= F < 1, bounded by 2^e) never differs from the exact comb by more than 2^e/2^21/((1-D)(1-F)); a float all-pass never by more than 2^e/2^20.", "quantifier": "every infinite run, every buffer length, e up to 98", "why_tests_cant": "drift over unbounded time cannot be observed by a finite test", "anchors": ["src/comb.rs:tick", "src/all_pass.rs:tick"]}
{"id": "C126", "title": "Interpolation keeps shape after rounding", "statement": "lerp in float arithmetic keeps the shape of the segment: between equal ends it returns them, it stays between its ends, and it is monotone in the factor.", "quantifier": "all finite a, b and all factors in [0,1]", "why_tests_cant": "needs the worst case of three roundings over all pairs of floats", "anchors": ["src/float/interpolation.rs:lerp", "src/float/interpolation.rs:lerp_unchecked"]}
{"id": "C127", "title": "Comb and all-pass are linear and time invariant", "statement": "In exact arithmetic the output of a comb (with settings moving along) and of an all-pass is linear in input and buffer contents together; delaying the input of a silent one delays the output.", "quantifier": "every buffer length and contents, every infinite input, every course of the settings", "why_tests_cant": "superposition over all infinite signals", "anchors": ["src/comb.rs:tick", "src/all_pass.rs:tick"]}
{"id": "C128", "title": "An oscillator does not drift", "statement": "However long an oscillator runs, its phase stays within a hundredth of a turn of the ideal freq/sr per sample.", "quantifier": "every frequency and sample rate in the audible range, every number of samples", "why_tests_cant": "the drift shows only after hours of samples", "anchors": ["src/oscillator/phase_accumulator.rs:tick", "src/oscillator/phase_accumulator.rs:new"]}
{"id": "C129", "title": "Bit depths compose", "statement": "Reducing by d and then by e is the same as reducing by the coarser of the two at once, bit for bit, for both bit reducers.", "quantifier": "every sample in [-1,1] (every float for the second), every pair of accepted depths", "why_tests_cant": "all floats times all pairs of depths", "anchors": ["src/float/bit_manipulation.rs:bit_reduce", "src/float/bit_manipulation.rs:bit_reduce_exp"]}
{"id": "C130", "title": "Panning keeps power after rounding", "statement": "With a square root whose square is off by at most the share eps, a finite signal up to 2^40 on both channels of stereo_pan keeps its power within eps + 2^-18, at every position in [-1,1].", "quantifier": "every position, every sample, every such square root", "why_tests_cant": "all floats, and every admissible external function", "anchors": ["src/stereo.rs:stereo_pan", "src/stereo.rs:equal_power_pan_unchecked"]}
{"id": "C131", "title": "Sine and cosine stay in quadrature", "statement": "For arguments up to 1000, fixed_point_sin(x)^2 + fixed_point_cos(x)^2 is within 3/1000 of 1.", "quantifier": "every finite x up to 1000 in size, debug and release", "why_tests_cant": "all floats of the range against the real functions", "anchors": ["src/float/math.rs:fixed_point_sin", "src/float/math.rs:fixed_point_cos"]}
{"id": "C132", "title": "A fractional delay does not depend on the cursor", "statement": "read_lerp_wrapped_at(off) blends the two past samples around the offset with the weights of its fractional part, wherever the cursor stands in the buffer.", "quantifier": "every delay line up to 2^20 samples, every cursor, every offset within the buffer", "why_tests_cant": "needs every cursor position in long buffers", "anchors": ["src/delay_line.rs:read_lerp_wrapped_at", "src/memory/memory_slice.rs:lerp_wrapped"]}
{"id": "C133", "title": "Four-point interpolation follows the cubic after rounding", "statement": "On four finite samples up to M (at most 2^60) and a position between the first and last node, lagrange and the four-point kernel return the same finite float within M/2^13 of the cubic through the samples; it exceeds the samples by less than 65 percent, and between the middle two by at most 26 percent.", "quantifier": "all finite samples and positions in range", "why_tests_cant": "five-dimensional input of floats; the worst overshoot lies at particular samples", "anchors": ["src/float/interpolation.rs:lagrange", "src/float/interpolation.rs:lagrange_only_4_elements"]}
{"id": "C134", "title": "Low-pass and high-pass are monotone or peak as q says", "statement": "In exact arithmetic, for q^2 <= 1/2 the low-pass magnitude falls and the high-pass magnitude rises steadily over all frequencies, with 12 dB per octave beyond the cutoff; for q^2 >= 1/2 the largest gain over all frequencies is exactly q/sqrt(1 - 1/(4q^2)).", "quantifier": "every cutoff, q and sample rate, every frequency", "why_tests_cant": "a continuum of frequencies times a continuum of designs", "anchors": ["src/biquad/butterworth.rs:lowpass", "src/biquad/butterworth.rs:highpass"]}
{"id": "C135", "title": "Notch and bell have the width and height asked for", "statement": "In exact arithmetic the notch amplifies no frequency and halves the power at exactly two, whose distance is the centre over q; a bell boost stays between 1 and its gain, a cut between 1/gain and 1, both steadily towards the centre.", "quantifier": "every cutoff, q, gain and sample rate, every frequency", "why_tests_cant": "a continuum of frequencies times a continuum of designs", "anchors": ["src/biquad/butterworth.rs:notch", "src/biquad/butterworth.rs:bell", "src/biquad/butterworth.rs:bell_boost_only", "src/biquad/butterworth.rs:bell_cut_only"]}
{"id": "C136", "title": "A low shelf stays between its two gains", "statement": "In exact arithmetic a low shelf of gain >= 1 lies between 1 and its gain at every frequency and falls steadily from one to the other, for every q.", "quantifier": "every cutoff, q, gain and sample rate, every frequency", "why_tests_cant": "a continuum of frequencies times a continuum of designs", "anchors": ["src/biquad/butterworth.rs:low_shelf", "src/biquad/butterworth.rs:low_shelf_boost_only", "src/biquad/butterworth.rs:low_shelf_cut_only"]}
{"id": "C137", "title": "Comb and all-pass answer a cosine with a scaled cosine", "statement": "In exact arithmetic, from any contents, a comb with |feedback| < 1 and dampening in [0,1) turns a cosine into the cosine scaled and shifted by its transfer function, of gain between 1/(1+|fb|) and 1/(1-|fb|), and a constant a into a/(1-fb); the all-pass has transfer function (3/2 - z^L)/(z^L - 1/2), of gain between 1 and 5/3.", "quantifier": "every buffer length and contents, every stable setting, every frequency", "why_tests_cant": "a limit over infinite signals at a continuum of frequencies", "anchors": ["src/comb.rs:tick", "src/all_pass.rs:tick"]}
{"id": "C138", "title": "tanh follows the hyperbolic tangent near zero", "statement": "For non-negative x, tanh in exact arithmetic lies below the true hyperbolic tangent, by at least x^3/((3+x^2)(2+x^2)) and at most x^3/6, and by less than 2/21 up to 1; in floats, for |x| <= 1, the result is finite, within |x|^3/6 + 2^-17 of the true value and within 1/10.", "quantifier": "all reals, and all finite floats in [-1, 1]", "why_tests_cant": "a bound against a transcendental function over a continuum", "anchors": ["src/float/math.rs:tanh", "src/float/math.rs:exp_approx"]}
{"id": "C139", "title": "A whole voice never fails and stays in range", "statement": "An oscillator times an envelope into a comb into a fixed low-pass, high-pass, all-pass or notch (cutoff from sr/2400), clipped and panned, played by any calls on the oscillator and, within sane ranges, on the envelope, the comb settings and the pan before each sample: no step ever faults, memory outside the comb's buffer is never touched, and both outputs are finite and within [-1,1] forever; if no key is ever pressed both outputs are exactly zero forever.", "quantifier": "every patch in range, every sequence of touches, every number of ticks", "why_tests_cant": "an invariant of the composition of six stateful parts over unbounded time", "anchors": ["src/oscillator/osc_functional.rs:next", "src/envelope.rs:tick", "src/comb.rs:tick", "src/biquad/mod.rs:process", "src/clipping.rs:digital_clip", "src/stereo.rs:mono_pan_unchecked"]}
{"id": "C140", "title": "Rounding keeps the zeros of the designs", "statement": "With coefficients computed in floats, over the range in which the designs are stable: the low-pass has gain exactly 0 at half the sample rate, the high-pass exactly 0 on constants, the notch cancels some frequency completely, and the all-pass has magnitude exactly 1 at every frequency.", "quantifier": "fc from sr/3200 to 0.318 sr, q from 1/16 to 64, every sample rate", "why_tests_cant": "an exact identity between rounded coefficients over a continuum of settings", "anchors": ["src/biquad/butterworth.rs:lowpass", "src/biquad/butterworth.rs:highpass", "src/biquad/butterworth.rs:allpass", "src/biquad/butterworth.rs:notch"]}
{"id": "C141", "title": "A float low-pass has unit gain on constants up to rounding", "statement": "With coefficients computed in floats, the low-pass settles on a constant input at 1 within 2.5 percent for fc from sr/600, and within 1/4000 from sr/60 (q from 0.6 to 2); at lower cutoffs the error grows: 4.9 percent at 16 Hz and 48 kHz.", "quantifier": "every setting in range, every initial state", "why_tests_cant": "the worst rounding lies at particular settings", "anchors": ["src/biquad/butterworth.rs:lowpass", "src/biquad/mod.rs:process"]}
{"id": "C142", "title": "A network of processors is the composition of its parts", "statement": "Any number of delay lines, combs and all-passes over separate slices of one memory, each fed by any function of the input and of the answers before it at the same tick: no tick ever fails, every answer is the one the processor gives alone to the signal on its wire, and no cell outside the slices ever changes.", "quantifier": "every network, wiring, memory, input signal and time", "why_tests_cant": "quantifies over all networks and all infinite signals", "anchors": ["src/comb.rs:tick", "src/all_pass.rs:tick", "src/delay_line.rs:write_and_advance", "src/delay_line.rs:read"]}
{"id": "C143", "title": "A reverb stays bounded for ever", "statement": "Up to 2^24 combs in parallel, summed and sent through up to 15 all-passes in series, over separate slices: with every comb leaving room (|x| + 2^e |feedback| <= 2^e) no tick fails, the combs stay within 2^e and the output within 3^(all-passes) times any power of two that is at least 2^e times the number of combs, all roundings counted.", "quantifier": "every such reverb, all settings, all bounded inputs, unbounded time", "why_tests_cant": "an invariant of a composed float system over unbounded time", "anchors": ["src/comb.rs:tick", "src/all_pass.rs:tick"]}
{"id": "C144", "title": "The rectangle table holds the sine integral", "statement": "Entry i of BANDLIMITED_RECT is 5/(3 pi) times the integral of sin(t)/t from 0 to i pi/100, within 3.6 millionths, for each of the 5075 entries.", "quantifier": "all 5075 entries, against the real integral", "why_tests_cant": "no test computes the integral exactly; the proof bounds the distance to the real number", "anchors": ["src/oscillator/lookup_tables/bl_rect.rs:BANDLIMITED_RECT"]}
{"id": "C145", "title": "lookup_bl_rect follows the band-limited rectangle", "statement": "For every float phase x in (0,1) other than 1/4 and 3/4, lookup_bl_rect(x) is within 45 millionths of the real band-limited rectangle: 5/(3 pi) Si(50.74 pi f) with f the folded phase, positive in the first half and negative in the second.", "quantifier": "every float in the period, every build", "why_tests_cant": "a bound against a real function over two billion floats", "anchors": ["src/float/math.rs:lookup_bl_rect"]}
{"id": "C146", "title": "A wavetable plays the waveform it was sampled from", "statement": "If the table holds N samples of a smooth waveform W, each to within e, then every sample a WavetableOscillator returns while it stays in its table is within e + M/(8 N^2) + L/2^22 + 1e-6 of W at the exact phase, L and M bounding the first and second derivative of W; for a sine this is 5/N^2 + 3e-6.", "quantifier": "every smooth waveform of at most 2 in magnitude, every table up to 2^24 samples, every accumulator state that stays in the table", "why_tests_cant": "the bound compares floats with a real function for all tables and all phases", "anchors": ["src/oscillator/osc_wavetable.rs:next"]}
{"id": "C147", "title": "The filter designs fit together", "statement": "For the same frequency, quality and sample rate, in exact arithmetic and for every input: the notch output is the low-pass output plus the high-pass output, the all-pass output is twice the notch output less the input, and the boosting bell adds gain - 1 times what the notch takes away.", "quantifier": "all positive frequencies, qualities and sample rates, every gain, every input sequence, every sample", "why_tests_cant": "an identity between four design functions over all parameters and all inputs", "anchors": ["src/biquad/butterworth.rs:lowpass", "src/biquad/butterworth.rs:highpass", "src/biquad/butterworth.rs:notch", "src/biquad/butterworth.rs:allpass", "src/biquad/butterworth.rs:bell_boost_only", "src/biquad/mod.rs:process"]}
{"id": "C148", "title": "Cascaded sections make the Butterworth filter of higher order", "statement": "n low-pass (high-pass) sections in series with the qualities 1/(2 cos((2i+1) pi/(4n))) are the Butterworth filter of order 2n: at every frequency, with r the ratio of the warped frequencies, the squared gain is 1/(1 + r^(4n)) (respectively r^(4n)/(1 + r^(4n))). Stable filters in series turn a cosine, from any state, into the cosine scaled and shifted by the product of their gains.", "quantifier": "every order, every frequency below Nyquist, every cutoff, every initial state", "why_tests_cant": "infinitely many orders and frequencies, and a limit over time", "anchors": ["src/biquad/butterworth.rs:lowpass", "src/biquad/butterworth.rs:highpass", "src/biquad/mod.rs:process"]}
{"id": "C149", "title": "Crossovers built from the designs are all-pass", "statement": "Two low-passes in series plus two high-passes in series, all of quality 1/sqrt 2, give for every input exactly the output of the all-pass of the same frequency and quality; one low-pass less one high-pass of quality 1/2 has gain one at every frequency.", "quantifier": "all positive cutoffs and sample rates, every input sequence, every sample, every frequency", "why_tests_cant": "an identity over all inputs and all frequencies", "anchors": ["src/biquad/butterworth.rs:lowpass", "src/biquad/butterworth.rs:highpass", "src/biquad/butterworth.rs:allpass", "src/biquad/mod.rs:process"]}
{"id": "C150", "title": "Oscillators are exactly periodic", "statement": "With its settings left alone an accumulator, a functional oscillator of any waveform and a wavetable oscillator inside its table are in the same state after m and after n calls if and only if m and n differ by a multiple of 2^32 / gcd(step, 2^32), step being the advance per call; so their output repeats bit for bit with that period.", "quantifier": "every accumulator state, every frequency and sample rate, every waveform, every number of calls", "why_tests_cant": "periods reach 2^32 calls", "anchors": ["src/oscillator/phase_accumulator.rs:next_value", "src/oscillator/osc_functional.rs:next", "src/oscillator/osc_wavetable.rs:next"]}
{"id": "C151", "title": "The waves have no DC offset", "statement": "The mean of the output over one period of T calls is within 1/T + 2^-22 of zero for the sawtooth, 2^-20 for the triangle, 0.0004 for the sine and 4/T + 2^-22 for the rectangle.", "quantifier": "every accumulator state, every frequency, sample rate and shift (with a non-zero step, but for the sawtooth)", "why_tests_cant": "the sums have up to 2^32 terms", "anchors": ["src/oscillator/osc_functional.rs:next_saw", "src/oscillator/osc_functional.rs:next_tri", "src/oscillator/osc_functional.rs:next_sine", "src/oscillator/osc_functional.rs:next_rect"]}
{"id": "C152", "title": "What a debug build returns, a release build returns", "statement": "Whenever a call returns a value in a build with overflow checks, the same call returns the same value in a build without: the readers of a slice and of a delay line, the sines, sinc, si and table lookups, the float field and bit-reduction functions, both oscillators under any sequence of settings, networks of delays, combs and all-passes at every tick, and a whole voice.", "quantifier": "every memory, slice, argument, operation sequence, wiring and tick, every word size", "why_tests_cant": "tests run in one build; the claim is about every run of the other", "anchors": ["src/memory/memory_slice.rs:get_sub_slice", "src/memory/memory_slice.rs:lerp", "src/delay_line.rs:write_and_advance", "src/fixed_point/math.rs:sin_i16", "src/float/conversion.rs:to_f32_components", "src/float/bit_manipulation.rs:bit_reduce", "src/oscillator/osc_functional.rs:next", "src/oscillator/osc_wavetable.rs:next", "src/comb.rs:tick", "src/all_pass.rs:tick"]}
{"id": "C153", "title": "Results do not depend on the word size of the target", "statement": "Calls give the same result, faults included, on every target of at least 32 bits, with buffers of at most 2^29 samples: slices, interpolated readers, delay lines, networks at every tick, whole voices, wavetable oscillators and the table lookups.", "quantifier": "every pair of word sizes from 32 to 64, every memory, index, float, wiring and tick", "why_tests_cant": "the tests run on the host only, and the indices where the targets part exceed 2^30", "anchors": ["src/memory/memory_slice.rs:get_wrapped", "src/memory/memory_slice.rs:lerp", "src/memory/memory_slice.rs:lerp_wrapped", "src/delay_line.rs:advance", "src/oscillator/osc_wavetable.rs:next", "src/float/math.rs:lookup_sin", "src/float/math.rs:lookup_bl_rect", "src/comb.rs:tick", "src/all_pass.rs:tick"]}
{"id": "C154", "title": "Inverting the signal inverts the output, and the sign of a zero never matters", "statement": "Feeding the inverted samples to a reader, a biquad (coefficients changing or not), a network of delays, combs and all-passes, a panner, a cross-fade, the clipper or a wavetable gives exactly the inverted output, bit for bit except for the sign of a zero; and replacing zeros by zeros of the other sign changes nothing but signs of zeros.", "quantifier": "every signal, state, coefficient sequence, wiring and tick, NaN and infinities included", "why_tests_cant": "tests compare a few outputs with == on positive inputs; the claim relates two runs of any length", "anchors": ["src/memory/memory_slice.rs:lerp", "src/biquad/mod.rs:process", "src/comb.rs:tick", "src/all_pass.rs:tick", "src/stereo.rs:mono_pan_unchecked", "src/stereo.rs:crossfade_correlated_unchecked", "src/clipping.rs:digital_clip", "src/oscillator/osc_wavetable.rs:next"]}
{"id": "C155", "title": "Rounded biquads with any stable poles stay bounded and follow the exact filter", "statement": "Run in floats from rest, a biquad with poles p and q inside the unit circle, real or complex, whose margin (1-|p|)(1-|q|) is at least 2^-16 stays finite, below 18 G/margin, and within G/margin^2/2^13 of the same filter in exact arithmetic, where G bounds the feed-forward products; every stable filter has a positive margin.", "quantifier": "every finite coefficient set with such poles, every infinite input, 2^-120 <= G <= 2^60", "why_tests_cant": "infinitely many samples, rounding included", "anchors": ["src/biquad/mod.rs:process", "src/biquad/mod.rs:new"]}
{"id": "C156", "title": "Every design, flat, boosting or cutting, and chains of them never blow up in floats", "statement": "Low-pass, high-pass, all-pass, notch, bell and low shelf with sr/600 <= fc <= 0.318 sr, designed and run in floats from rest, stay finite and below 2^29 times the largest input for ever: q from 1/16 to 2 and gain up to 64, bells cutting with a gain g of -1/16 to -16 where -g/16 <= q <= -g, shelves cutting with -1 to -16; and so do chains of such filters, with 2^29 per filter. Boosting ones with q from 0.6 to 2 do so from sr/2400 up, below 2^32 times the largest input.", "quantifier": "every such fc, q, gain and sr from 1 to 2^30, every infinite input bounded by 2^52", "why_tests_cant": "all designs and all infinite runs, rounding included", "anchors": ["src/biquad/butterworth.rs:setup_coeffs", "src/biquad/butterworth.rs:lowpass", "src/biquad/butterworth.rs:highpass", "src/biquad/butterworth.rs:allpass", "src/biquad/butterworth.rs:notch", "src/biquad/butterworth.rs:bell", "src/biquad/butterworth.rs:low_shelf", "src/biquad/mod.rs:process"]}
{"id": "C157", "title": "The unchecked bit reducers, for every float and every depth", "statement": "bit_reduce_unchecked and bit_reduce_exp_unchecked panic exactly when overflow checks are on and the depth is 32 or more. Depth 0 returns the input. Otherwise the depth counts modulo 32: the linear form keeps the sign, truncates magnitudes below 2 to a multiple of 2^depth/2^31, saturates larger ones and infinities at 2 - 2^depth/2^31 (2 below depth 8) and turns NaN into zero; the exponential form clears the low depth bits of the word, at most the 23 mantissa bits.", "quantifier": "all floats including NaN and infinity, all depths, both kinds of build", "why_tests_cant": "2^32 floats times 256 depths times two builds; the checked forms hide most of it", "anchors": ["src/float/bit_manipulation.rs:bit_reduce_unchecked", "src/float/bit_manipulation.rs:bit_reduce_exp_unchecked"]}
{"id": "C158", "title": "Oscillators keep their phase relation", "statement": "Two phase accumulators with the same frequency and sample rate, started at any two phases, keep the difference of their phases (modulo one turn) through any history of calls and retunings made to both; so do the values they return, as long as the shifts are left alone.", "quantifier": "all accumulator states, all histories of calls", "why_tests_cant": "needs every interleaving of calls and retunings, and drift would show after hours only", "anchors": ["src/oscillator/phase_accumulator.rs:tick", "src/oscillator/phase_accumulator.rs:next_value", "src/oscillator/phase_accumulator.rs:set_freq_unchecked", "src/oscillator/phase_accumulator.rs:set_sr_unchecked"]}
{"id": "C159", "title": "Octaves stay in phase", "statement": "An oscillator tuned k octaves above another (exactly 2^k times the frequency) at the same sample rate stays locked to it: its phase is always 2^k times the phase of the lower one, modulo one turn.", "quantifier": "all frequencies up to Nyquist, all k, all numbers of calls", "why_tests_cant": "the steps differ in the last bits only; the drift becomes audible after minutes", "anchors": ["src/oscillator/phase_accumulator.rs:tick", "src/oscillator/phase_accumulator.rs:new"]}
{"id": "C160", "title": "Only the ratio to the sample rate matters", "statement": "Running at 2^k times the sample rate with 2^k times the frequency (or 2^k times shorter envelope times) gives the same results bit for bit: the same coefficients from every Butterworth design, the same phases and oscillator samples, the same envelope samples, through any history of calls and changes; over exact arithmetic the designs agree for every factor.", "quantifier": "all frequencies, times and rates in a wide range, all k, all histories of calls", "why_tests_cant": "quantifies over pairs of configurations and whole histories", "anchors": ["src/biquad/butterworth.rs:setup_coeffs", "src/oscillator/phase_accumulator.rs:tick", "src/oscillator/osc_functional.rs:next", "src/oscillator/osc_wavetable.rs:next", "src/envelope.rs:set_time_parameter", "src/envelope.rs:tick"]}
{"id": "C161", "title": "Which sine tables compile", "statement": "sine_table::<N>() fails to compile exactly when N is a multiple of 65536 or (N-1)*(65535/(N mod 65536)) exceeds i32::MAX; every other size gives a table whose entry i is the fixed-point sine of i*(65535/(N mod 65536)) - 32767 wrapped into i16. In particular all sizes from 1 to 65535 compile, 65537 does not and 65538 does.", "quantifier": "all table sizes N up to 2^31", "why_tests_cant": "a const-generic parameter: each N is a separate compilation", "anchors": ["src/oscillator/lookup_tables/mod.rs:sine_table"]}
{"id": "C162", "title": "The filters as computed in floats are the textbook analogue filters, at every frequency", "statement": "For fc from sr/600 to 0.318 sr and q from 0.6 to 2, there are one corner angle within 0.11 percent of 2*pi*fc/sr and one Q within 2^-22 of q such that, at every frequency below half the sample rate, the complex gain of the low-pass, high-pass, all-pass, notch and boosting bell whose coefficients the code computes in f32 agrees with the gain of the second-order analogue section at the bilinearly warped frequency tan(theta/2)/tan(thetac/2): to (3/r^2+200)/2^24 relatively for low-pass and high-pass, to (8/r^2+400)/2^24 (times the boost) for the others, r = fc/sr. At the corner the low-pass has gain q at -90 degrees and the high-pass q at +90 degrees.", "quantifier": "all sample rates from 1 to 2^30, corner frequencies and q in range, all frequencies, boosts from 1 to 16, every powi within the contract", "why_tests_cant": "a statement about complex gains at all real frequencies, under rounding of every intermediate", "anchors": ["src/biquad/butterworth.rs:lowpass", "src/biquad/butterworth.rs:highpass", "src/biquad/butterworth.rs:allpass", "src/biquad/butterworth.rs:notch", "src/biquad/butterworth.rs:bell_boost_only", "src/biquad/butterworth.rs:setup_coeffs", "src/float/math.rs:fast_tan"]}
{"id": "C163", "title": "A signal 2^k times as loud comes out exactly 2^k times as loud", "statement": "Feed a biquad (its coefficients replaced before any sample), or a network of delay lines, combs and all-passes with mixers between them, the same signal 2^k times as loud (state scaled alike). As long as no product of a sample and a setting has fallen below the normal range of f32 and nothing overflows, the output is bit for bit 2^k times as loud. The condition cannot be dropped: halving the least float gives 0, halving twice the least float does not.", "quantifier": "all signals, settings, states, networks, word sizes, k and sample numbers", "why_tests_cant": "every rounding of every intermediate of an unbounded run has to commute with the scaling", "anchors": ["src/biquad/mod.rs:process", "src/delay_line.rs:DelayLine", "src/comb.rs:tick", "src/all_pass.rs:tick"]}
{"id": "C164", "title": "The fixed-point sine rises and is odd", "statement": "sin_i16 covers a quarter turn to either side of 0, where the sine rises: a later phase gives a value at least as high; from each phase to the next it moves by at most 2 units; the values at z and -z are opposite.", "quantifier": "all 65536 phases and all pairs of them, both builds", "why_tests_cant": "2^31 pairs of phases; the dips are single units at isolated phases", "anchors": ["src/fixed_point/math.rs:sin_i16", "src/fixed_point/math.rs:sin_i16_unchecked"]}
{"id": "C165", "title": "The loudness of the waves", "statement": "Over one period of T samples the mean square of the oscillator's output is that of the wave: 1/3 for the sawtooth and the triangle, 1/2 for the sine, 1 for the rectangle, up to terms that vanish with T and rounding; where in the period it starts makes no difference.", "quantifier": "all frequencies and sample rates (every step), all phases, shifts and counters, both builds; rem and floor under contract", "why_tests_cant": "a statement about sums over up to 2^32 samples, for 2^32 steps and as many phases", "anchors": ["src/oscillator/osc_functional.rs:next", "src/oscillator/phase_accumulator.rs:tick"]}
{"id": "C166", "title": "A higher frequency never gives a lower pitch", "statement": "Of two accumulators at the same sample rate the one asked for the higher frequency moves on at least as far with every call; at a higher sample rate the same frequency moves on at most as far; frequencies below Nyquist one part in a million and a billionth of the sample rate apart give different pitches.", "quantifier": "all finite float frequencies including negative ones and those above the sample rate, all sample rates from 2^-90, all counters and shifts", "why_tests_cant": "monotone over pairs of floats (2^64 of them) through a division, a product and a saturating conversion, each of which rounds", "anchors": ["src/oscillator/phase_accumulator.rs:tick", "src/oscillator/phase_accumulator.rs:set_freq_unchecked", "src/oscillator/phase_accumulator.rs:set_sr_unchecked"]}
{"id": "C167", "title": "A stable filter forgets its past and falls silent", "statement": "What was in a stable biquad at the start dies away geometrically, so that two filters started differently put out the same in the end; once there is no input any more, a stable filter falls silent: its output becomes 0.", "quantifier": "all coefficients with poles at least 2^-16 inside the unit circle (measured as (1-|p|)(1-|q|)), all states up to 2^60, all bounded inputs, all times", "why_tests_cant": "about every stable filter, every state and every input for ever; the ringing that remains is 2^-148 and starts hundreds of samples after the input has ended", "anchors": ["src/biquad/mod.rs:process", "src/biquad/butterworth.rs:lowpass"]}
{"id": "C168", "title": "Decibels in float arithmetic", "statement": "With a log10 of absolute error e and a power of ten of relative error d, to_decibels is within 20 e + 2^-14 dB of 20 log10 x, to_volt_ratio is within d + 2^-16 of 10^(x/20) relatively, going there and back changes a level by at most d + 6 e + 2^-14 of itself, and back and there a decibel value by at most 20 (e + d) + 2^-11 dB.", "quantifier": "every positive finite float, denormals included (there and back: levels from 10^-29 to 10^29); decibels up to 600 either way; micromath's log10 and power as parameters with any error e and d", "why_tests_cant": "2^31 levels, each through two approximations and four roundings, and for every possible size of the approximation errors", "anchors": ["src/decibels.rs:to_decibels_unchecked", "src/decibels.rs:to_decibels", "src/decibels.rs:to_volt_ratio"]}
{"id": "C169", "title": "A longer time asked for never makes a stage faster", "statement": "Of two envelopes in the same state, the one whose current stage is set to the longer time never finishes that stage earlier, and until then never is further along: no sample of the longer attack is higher, no sample of the longer decay or release lower.", "quantifier": "all states reached by any calls with times of at least one sample, all pairs of times, all slopes and levels, every number of ticks; powf monotone", "why_tests_cant": "compares two executions of any length for every pair of times; rounding accumulates differently in the two", "anchors": ["src/envelope.rs:set_attack", "src/envelope.rs:set_decay", "src/envelope.rs:set_release", "src/envelope.rs:set_time_parameter", "src/envelope.rs:tick"]}
{"id": "C170", "title": "Cutoff and q turn the right way", "statement": "Turning up the cutoff makes a low-pass louder and a high-pass quieter at every frequency if there is no resonance (q^2 <= 1/2), and never at every frequency if there is; turning up q makes low-pass, high-pass and notch louder and a boosting bell quieter, at every frequency. In floats fast_tan never falls on [0,1], and a higher cutoff, a lower sample rate or a lower q never gives a smaller k^2 or k/q, nor a high-pass with a larger first coefficient.", "quantifier": "exact arithmetic: all cutoffs, q, sample rates and frequencies; floats: cutoffs from 2^-20 to 0.318 of the sample rate, sample rates from 1 to 2^30, q from 2^-60; powi within its error bound and monotone", "why_tests_cant": "compares the responses of two filters over a continuum of frequencies; in floats, monotony through eight rounded terms for every pair of floats", "anchors": ["src/biquad/butterworth.rs:lowpass", "src/biquad/butterworth.rs:highpass", "src/biquad/butterworth.rs:notch", "src/biquad/butterworth.rs:bell_boost_only", "src/biquad/butterworth.rs:setup_coeffs", "src/float/math.rs:fast_tan"]}
{"id": "C171", "title": "The gain of a bell turns the right way", "statement": "Turning up the gain of a bell never makes it quieter, at any frequency.", "quantifier": "all gains, positive and negative, all cutoffs, q, sample rates and frequencies", "why_tests_cant": "compares responses over a continuum of gains and frequencies", "anchors": ["src/biquad/butterworth.rs:bell", "src/biquad/butterworth.rs:bell_boost_only", "src/biquad/butterworth.rs:bell_cut_only"]}
{"id": "C172", "title": "A comb keeps the order of signals", "statement": "Of two float combs of the same length with the same settings (moved at will, feedback not negative), the one whose samples, cells and state are nowhere above those of the other never puts out more than the other; and with nothing negative anywhere, more feedback never gives less output, nor any negative output.", "quantifier": "all lengths, states and pairs of infinite signals, all feedback and dampening sequences that leave room below 2^126 (dampening in [0,1])", "why_tests_cant": "compares two infinite executions for every pair of signals, where each rounds differently", "anchors": ["src/comb.rs:tick", "src/comb.rs:set_feedback", "src/comb.rs:set_dampening"]}
{"id": "C173", "title": "The spectrum of the waves", "statement": "Over one period of T calls the m-th harmonic of the sawtooth has size 1/(T sin(pi m/T)) to within 2^-22; triangle and rectangle have no even harmonics (up to 2^-20, 4/T + 2^-22) and odd ones between cos(pi m/T) times and once 4/(T sin(pi m/T))^2, and of 2/(T sin(pi m/T)), to within the same; the sine has its fundamental of size 1/2 and no other harmonic above 0.0004, all others together carrying at most 1.6 * 10^-7 of power.", "quantifier": "every accumulator state, frequency, sample rate and shift (non-zero step; for the sine's fundamental more than two samples a period), every m", "why_tests_cant": "sums of up to 2^32 terms, for each of up to 2^32 harmonics", "anchors": ["src/oscillator/osc_functional.rs:next_saw", "src/oscillator/osc_functional.rs:next_tri", "src/oscillator/osc_functional.rs:next_rect", "src/oscillator/osc_functional.rs:next_sine", "src/oscillator/phase_accumulator.rs:next_value_normalized"]}
{"id": "C174", "title": "Which filters overshoot", "statement": "In exact arithmetic the step response of a low-pass with q > 1/2 exceeds its final value 1 at some sample; with q <= 1/2, warped cutoff K <= 1 and K/q <= 1 + K^2 it climbs to 1 without ever falling or exceeding it; the step response of a high-pass always goes below zero.", "quantifier": "every cutoff, sample rate and q > 0 (in the stated ranges), every sample", "why_tests_cant": "quantifies over infinite responses for a continuum of designs", "anchors": ["src/biquad/butterworth.rs:lowpass", "src/biquad/butterworth.rs:highpass", "src/biquad/mod.rs:process"]}
{"id": "C175", "title": "How long a comb rings", "statement": "In float arithmetic, without dampening, the k-th echo of an impulse A in a comb of feedback g, |g| <= 1, is A g^k up to one rounding per echo, never louder than the echo before, and everything between the echoes is zero; for 0 < g <= 1 - 2^-10 the echoes pass -60 dB after 3/log10(1/g) rounds of the buffer, to one part in 4096.", "quantifier": "all buffer lengths, feedbacks and finite impulses (A >= 2^-90 for the time), every k", "why_tests_cant": "the number of echoes is unbounded and each one is rounded", "anchors": ["src/comb.rs:tick", "src/comb.rs:set_feedback", "src/comb.rs:set_dampening"]}
{"id": "C176", "title": "An envelope does not click", "statement": "Whatever the gate does, no two consecutive samples of an envelope (nor silence and the first sample) differ by more than its curve moves in one step of the fastest stage, plus 2^-21 for rounding.", "quantifier": "every envelope with times of at least one sample and slopes up to 20, every history of gates and ticks, every powf with the given modulus of continuity", "why_tests_cant": "all histories of gates; stages may be cut short anywhere", "anchors": ["src/envelope.rs:tick", "src/envelope.rs:trigger_on", "src/envelope.rs:trigger_off", "src/envelope.rs:next_attack", "src/envelope.rs:next_decay", "src/envelope.rs:next_release"]}
{"id": "C177", "title": "What the filters do to the energy of a signal", "statement": "In exact arithmetic: an all-pass never emits more energy than it was given and gives back all of it in the end; a low-pass and a high-pass of the same setting with q <= 1/sqrt 2 together never emit more energy than they were given, and at q = 1/sqrt 2 exactly as much in the end; a notch never adds energy; a bell or low shelf with gain g >= 1 emits between 1 and g^2 times the energy, with gain -g between 1/g^2 and 1 times; a bell with a gain g between 0 and 1 emits between g^2 and 1 times the energy, with gain -g between 1 and 1/g^2 times; a low-pass or high-pass with q > 1/sqrt 2 adds energy to some signal.", "quantifier": "every cutoff, sample rate, q and gain in the stated ranges, every input signal and every number of samples", "why_tests_cant": "a statement about all signals, including infinite ones, and a continuum of designs", "anchors": ["src/biquad/butterworth.rs:lowpass", "src/biquad/butterworth.rs:highpass", "src/biquad/butterworth.rs:allpass", "src/biquad/butterworth.rs:notch", "src/biquad/butterworth.rs:bell", "src/biquad/butterworth.rs:low_shelf", "src/biquad/mod.rs:process"]}
{"id": "C178", "title": "Turning the cutoff while the filter runs", "statement": "A low-pass whose cutoff is set anew before any sample keeps a bounded input finite.", "quantifier": "every sequence of stable cutoffs, every input with |x| <= 1, every number of samples", "why_tests_cant": "all infinite sequences of settings; each single setting is stable, only their alternation is not", "anchors": ["src/biquad/butterworth.rs:lowpass", "src/biquad/mod.rs:process"]}
{"id": "C179", "title": "Modulating the cutoff within an octave", "statement": "A filter (low-pass, high-pass, all-pass, notch, boosting bell, in floats also boosting low shelf) whose cutoff, q, gain and even kind are set anew before every sample stays bounded as long as the cutoff stays within one octave [f, 2f] with 2f <= sr/4 and 1/8 <= q <= 1: in exact arithmetic the output is bounded by a constant times the input and the filter forgets its past state geometrically; in floats (f >= sr/275) the output of inputs |x| <= m <= 2^22 is finite and at most 2^31 m.", "quantifier": "every sequence of settings in the range, every bounded input, every number of samples", "why_tests_cant": "all infinite sequences of settings; C178 shows that stability of each single setting is not enough", "anchors": ["src/biquad/butterworth.rs:lowpass", "src/biquad/butterworth.rs:highpass", "src/biquad/butterworth.rs:allpass", "src/biquad/butterworth.rs:notch", "src/biquad/butterworth.rs:bell", "src/biquad/butterworth.rs:low_shelf", "src/biquad/mod.rs:process"]}
{"id": "C180", "title": "What the delay effects do to the energy of a signal", "statement": "In exact arithmetic, starting from an empty buffer: a comb with feedback g, |g| < 1, never emits more than 1/(1-|g|)^2 times the energy it was given, whatever its dampening in [0, 1], and in the end at least 1/(1+|g|)^2 times; the delay all-pass never emits more than 25/9 times the energy it was given and in the end loses none.", "quantifier": "every buffer length, every feedback and dampening in range, every input signal, every number of samples", "why_tests_cant": "a statement about all signals, including infinite ones, through a recurrent loop", "anchors": ["src/comb.rs:tick", "src/comb.rs:set_feedback", "src/comb.rs:set_dampening", "src/all_pass.rs:tick"]}
{"id": "C181", "title": "A delay line returns the signal at the delayed time", "statement": "A delay line that has been fed a full buffer of samples of a smooth signal S, read at a fractional offset off inside the buffer, answers with S at the time off samples after now (off < 0), within the recording error, an eighth of the bend of S per sample, the slope of S times (length+2)/2^24, and a millionth. In particular a tap moving by v samples per sample turns a tone of frequency w into one of frequency w(1+v).", "quantifier": "every delay line up to 2^20 samples, every state of it before, every smooth signal and number of samples, every offset within the buffer", "why_tests_cant": "a statement about all smooth signals, all fractional offsets and all cursor positions", "anchors": ["src/delay_line.rs:write_and_advance", "src/delay_line.rs:read_lerp_wrapped_at", "src/memory/memory_slice.rs:lerp_wrapped", "src/float/interpolation.rs:lerp_unchecked"]}
{"id": "C182", "title": "How the filters turn the phase", "statement": "There is one lag phi, growing strictly from 0 at DC to half a turn at Nyquist and a quarter turn at the corner, such that the low-pass delays every tone by the phase phi, the high-pass advances it by half a turn less phi, the all-pass delays it by 2 phi at unchanged strength, and the notch passes cos(phi) of it with lag phi. In floats the same holds up to the relative error of C162.", "quantifier": "every cutoff, quality and sample rate (floats: from sr/600 to 0.318 sr, q from 0.6 to 2), every frequency between 0 and Nyquist, every initial state", "why_tests_cant": "a statement about the phase at every frequency of every filter", "anchors": ["src/biquad/butterworth.rs:lowpass", "src/biquad/butterworth.rs:highpass", "src/biquad/butterworth.rs:allpass", "src/biquad/butterworth.rs:notch", "src/biquad/mod.rs:process"]}
{"id": "C183", "title": "A Lagrange read of a delay line is accurate to fourth order", "statement": "A delay line that has been fed a signal with a bounded fourth derivative, read with read_lagrange_wrapped_at at a fractional offset inside the buffer, answers with the signal at that time (or a fixed number of samples beside it), up to a multiple of the fourth derivative, the recording error, the slope times the rounding of the position, and one percent.", "quantifier": "every signal with four derivatives, every line of up to 2^20 samples, every cursor position and fractional offset inside the buffer", "why_tests_cant": "a steady input at a fractional offset is enough to see it fail, but the bound concerns every smooth signal at every offset", "anchors": ["src/delay_line.rs:read_lagrange_wrapped_at", "src/memory/memory_slice.rs:lagrange_wrapped", "src/float/interpolation.rs:lagrange"]}
{"id": "C184", "title": "How a filter rings", "statement": "Once the input has ended, a low-pass, high-pass, all-pass, notch, bell boost or low-shelf boost of quality above 1/2 goes on as one decaying tone, the same for all of them whatever they were fed: with the cutoff angle t and a = sin(t)/(2q) it shrinks by sqrt((1-a)/(1+a)) per sample, so a fall by the factor D takes between (1-a^2) log(D)/a and log(D)/a samples; its pitch w has cos(w) = cos(t)/sqrt(1-a^2), below the cutoff for cutoffs under a quarter of the sample rate, above it over that, and within 1/(4q^2) of it in the cosine. Rounded filters do the same up to rounding.", "quantifier": "every cutoff and sample rate, every quality above 1/2, every past input and state; floats: every finite coefficient set with complex poles inside 1 - 2^-8", "why_tests_cant": "the tail of the response after every possible past", "anchors": ["src/biquad/butterworth.rs:lowpass", "src/biquad/butterworth.rs:highpass", "src/biquad/butterworth.rs:allpass", "src/biquad/butterworth.rs:notch", "src/biquad/butterworth.rs:bell_boost_only", "src/biquad/butterworth.rs:low_shelf_boost_only", "src/biquad/mod.rs:process"]}
{"id": "C185", "title": "Where a comb resonates", "statement": "Let g be what one trip round a comb leaves of a steady tone: the feedback's size times the one-pole low-pass at that pitch. The comb settles on a tone of strength between 1/(1+g) and 1/(1-g). With positive feedback it reaches 1/(1-g) once for each multiple i of (sample rate)/(buffer length) up to half the sample rate, at most a quarter of that spacing below the multiple: exactly on it without dampening, strictly below it with dampening (except at half the sample rate). With negative feedback the same holds at the odd multiples of half the spacing. Dampening leaves g the smaller the higher the tone, from the feedback itself at 0 Hz to feedback*(1-d)/(1+d) at half the sample rate, so each partial is weaker than the one below it.", "quantifier": "every buffer length and content, every dampening in [0,1), every feedback in (-1,1) other than 0, every frequency, every partial", "why_tests_cant": "a steady state over every pitch and buffer length", "anchors": ["src/comb.rs:tick", "src/comb.rs:set_dampening", "src/comb.rs:set_feedback"]}
{"id": "C186", "title": "Delay effects run in floats answer a tone as the exact ones do", "statement": "A comb in float arithmetic (finite settings, dampening in [0,1), feedback in (-1,1)), from any bounded finite contents, fed floats within e of a tone of amplitude a, ends up within e/(1-|feedback|) + room*2^-21/((1-dampening)(1-|feedback|)) of that tone scaled and shifted by the transfer function of the comb; at each partial of C185 the scale is a/(1-g). An all-pass ends up within 3e + room*2^-20 of the tone scaled and shifted by its transfer function (the one of C137).", "quantifier": "every buffer length, word size and content, every frequency, amplitude and rounding of the input tone that leaves room (|input| + room*|feedback| <= room, room a power of two up to 2^98)", "why_tests_cant": "a limit over infinitely many rounded ticks for every pitch", "anchors": ["src/comb.rs:tick", "src/comb.rs:set_dampening", "src/comb.rs:set_feedback", "src/all_pass.rs:tick"]}
{"id": "C187", "title": "Periodic in, periodic out", "statement": "Fed a signal of period P, a stable biquad, a comb (dampening and |feedback| below one) and a delay all-pass converge, whatever they held before, to an output of period P, and over one period that output sums to the gain at direct current times the sum of the input. Run in floats, each ends up repeating exactly, bit for bit, in a cycle of a whole number of input periods; so does a voice made of a functional oscillator and a biquad.", "quantifier": "every period, every periodic input, every starting state; floats: every state and input, stable or not, special values included", "why_tests_cant": "a limit over infinitely many samples, for every periodic input", "anchors": ["src/biquad/mod.rs:process", "src/comb.rs:tick", "src/all_pass.rs:tick", "src/oscillator/osc_functional.rs:next"]}
{"id": "C188", "title": "sinh and cosh are as accurate as the exponential", "statement": "With an exp of relative error d, for finite |x| <= 80, sinh and cosh in float arithmetic are finite and within (d + 2^-21)*cosh(x) of the real functions, and cosh^2 - sinh^2 is within 5(d + 2^-21)*cosh(x)^2 of 1.", "quantifier": "every finite float up to 80 in magnitude, every exp meeting the contract", "why_tests_cant": "all floats, all exponentials", "anchors": ["src/float/math.rs:sinh", "src/float/math.rs:cosh"]}
{"id": "C189", "title": "Clipping, panning and crossfading make no steps of their own", "statement": "digital_clip is odd bit for bit, returns the nearest number in [-1,1] and brings no two samples further apart. When the position of a crossfade or a mono pan turns by t and its signals move by at most d, the output moves by at most d plus t/2 times the distance of the two signals (times the signal for the pan), plus 2^-20 of the level for rounding; equal-power gains move by at most sqrt(t/2) with an exact square root.", "quantifier": "every pair of positions in [-1,1], every finite signal up to 2^98", "why_tests_cant": "all pairs of positions and all quadruples of samples", "anchors": ["src/clipping.rs:digital_clip", "src/stereo.rs:crossfade_correlated_unchecked", "src/stereo.rs:mono_pan", "src/stereo.rs:mono_pan_unchecked", "src/stereo.rs:equal_power_pan_unchecked"]}
{"id": "C190", "title": "A count of samples survives its conversion to time", "statement": "A whole number of samples converted to seconds and back (up to 2^20 samples) or to milliseconds and back (up to 2^19) is off by at most 2^-22 (2^-21) of itself and rounds to the same number; the four conversions never reverse the order of their arguments.", "quantifier": "every count, every finite sample rate from 1 to 2^40; monotonicity for all finite floats and positive rates", "why_tests_cant": "every count with every sample rate", "anchors": ["src/float/dsp_util.rs:samples_to_seconds", "src/float/dsp_util.rs:seconds_to_samples", "src/float/dsp_util.rs:samples_to_millis", "src/float/dsp_util.rs:millis_to_samples"]}
{"id": "C191", "title": "How far an envelope moves in one sample", "statement": "With a power function good to e, the first sample of an attack is the attack rate (one over the attack in samples) to the power 1/slope, to within e; an attack of slope 20 up to 65536 samples long therefore starts with a jump above 9/16 - e. Gated on only when idle, no two consecutive samples differ by more than the larger of the steps of t^(1/slope) and t^slope over the largest rate h (h^p for p <= 1, p*h*(1+h)^(p-1) for p >= 1), plus 2e + 2^-21.", "quantifier": "every envelope with times of at least one sample and slopes up to 20, every history of gates and ticks that opens the gate only when idle, every powf meeting the contract", "why_tests_cant": "all histories of gates", "anchors": ["src/envelope.rs:tick", "src/envelope.rs:trigger_on", "src/envelope.rs:next_attack", "src/envelope.rs:next_decay", "src/envelope.rs:next_release"]}
{"id": "C192", "title": "Simpson integration converges to the integral", "statement": "As the number of intervals N grows, simpsons_rule tends to the integral of a smooth function; on even N the error falls at least with the square of N.", "quantifier": "every integrand with a bounded second derivative, every interval, every N from 4 on", "why_tests_cant": "all smooth functions and the limit over all N", "anchors": ["src/float/integral.rs:simpsons_rule"]}
{"id": "C193", "title": "A flanger never blows up", "statement": "A delay line read with read_lerp_wrapped_at at an offset that moves in any way inside the buffer, with the read times a feedback g (also moving) added to the input and written back, never fails; with |g| <= c and inputs up to A it stays within any B with (A + c*B)(1 + 2^-21) + 2^-140 <= B for ever, and without input the reads of pass k through the buffer are at most c^k times the level, up to rounding and 2^-119.", "quantifier": "every buffer up to 2^20 samples, every finite sequence of inputs, feedbacks and offsets in range", "why_tests_cant": "all sequences of offsets", "anchors": ["src/delay_line.rs:read_lerp_wrapped_at", "src/delay_line.rs:write_and_advance"]}
{"id": "C194", "title": "Tones beyond half the sample rate fold", "statement": "With no anti-aliasing, a sine oscillator tuned to f + sr puts out the samples of one tuned to f, and one tuned to sr - f those of f upside down.", "quantifier": "every f below sr, every sr in the normal range, every call", "why_tests_cant": "all frequencies and any number of calls", "anchors": ["src/oscillator/phase_accumulator.rs:set_freq_unchecked", "src/oscillator/phase_accumulator.rs:next_value", "src/oscillator/osc_functional.rs:next_sine", "src/oscillator/osc_functional.rs:next_tri"]}
{"id": "C195", "title": "A low-pass works however low its cutoff", "statement": "For every positive cutoff up to 0.318 sr and moderate q, the float low-pass answers a click with a bounded ring and passes constants.", "quantifier": "every cutoff, q and sample rate of the range, every sample", "why_tests_cant": "all cutoffs; the growth shows only after tens of thousands of samples", "anchors": ["src/biquad/butterworth.rs:lowpass", "src/biquad/butterworth.rs:setup_coeffs", "src/biquad/mod.rs:process"]}
{"id": "C196", "title": "Filters act at the cutoff asked for up to half the sample rate", "statement": "For every cutoff below sr/2 the frequency at which low-pass and high-pass turn by a quarter, the all-pass by a half and the notch blocks is within 5 percent of the cutoff asked for (exact arithmetic).", "quantifier": "every fc below sr/2, every q and sr", "why_tests_cant": "all cutoffs; the tests try a few low ones", "anchors": ["src/biquad/butterworth.rs:setup_coeffs", "src/biquad/butterworth.rs:notch", "src/float/math.rs:fast_tan"]}
{"id": "C197", "title": "A filter sweep driven by the envelope never fails", "statement": "An oscillator into a filter into an amplifier, the envelope moving the level and the cutoff (from f to 2f, coefficients computed anew before every sample), played by any calls on the oscillator and moderate ones on the envelope, with the kind of filter, q from 1/8 to 1 and gain up to 64 chosen anew before every sample: no step ever faults, every sample is finite and at most 2^33, the clipper after it gives a number of [-1,1], and until a key is pressed every sample is exactly zero.", "quantifier": "every f from sr/275 to sr/8, every sequence of calls, every number of samples", "why_tests_cant": "an invariant of the composition of oscillator, envelope, filter design and filter over unbounded time, rounding included", "anchors": ["src/oscillator/osc_functional.rs:next", "src/envelope.rs:tick", "src/biquad/butterworth.rs:setup_coeffs", "src/biquad/butterworth.rs:lowpass", "src/biquad/mod.rs:process", "src/clipping.rs:digital_clip"]}
{"id": "C198", "title": "How late the filters are", "statement": "In exact arithmetic, a value moving at a constant speed comes out of every design, from whatever state it was in, as the value some fixed number of samples before, times the gain at DC, with an error tending to zero: 1/(2kq) samples late for the low-pass and the notch, 1/(kq) for the all-pass, (1-gain)/(2kq) for a bell (ahead when it boosts by more than 1), by the difference of the middle coefficients for a shelf; after the high-pass it is silence. A comb over L samples with feedback g and dampening d raises it by 1/(1-g) and is (L + g d/(1-d))/(1-g) samples late, the all-pass 4L. Here k is the warped cutoff, and 1/(2kq) is at most sr/(2 pi fc q), and at least 399/400 of it for fc up to sr/40.", "quantifier": "every cutoff, q, gain, sample rate, start state, start value and speed", "why_tests_cant": "a limit for every state and every filter parameter", "anchors": ["src/biquad/butterworth.rs:setup_coeffs", "src/biquad/butterworth.rs:lowpass", "src/biquad/butterworth.rs:notch", "src/biquad/butterworth.rs:allpass", "src/biquad/butterworth.rs:highpass", "src/biquad/butterworth.rs:bell_boost_only", "src/biquad/butterworth.rs:low_shelf_boost_only", "src/biquad/mod.rs:process", "src/comb.rs:tick", "src/all_pass.rs:tick"]}
{"id": "C199", "title": "Effects in series may be put in any order", "statement": "In exact arithmetic, any number of biquads, delay lines, combs and all-passes in series, nothing in their states and buffers, answer every signal without fault, and the answer is the same, sample by sample, whatever order the stages are put in; and so does a chain of delay lines, combs and all-passes run tick by tick over separate slices of one memory.", "quantifier": "every chain, every permutation of it, every input, every coefficient, setting, buffer length and cursor", "why_tests_cant": "all permutations of all chains, for all signals", "anchors": ["src/biquad/mod.rs:process", "src/delay_line.rs:read", "src/comb.rs:tick", "src/all_pass.rs:tick"]}
{"id": "C200", "title": "A chain of effects is known by its impulse response", "statement": "In exact arithmetic, what a chain of biquads, delay lines, combs and all-passes with nothing in it answers to any signal is the sum over k of its impulse response at k times the signal k samples before; two chains with the same impulse response do the same to every signal; and the most such a chain makes of a signal within B is exactly B times the sum of the magnitudes of its impulse response.", "quantifier": "every chain, every signal, every coefficient, setting, buffer length and cursor", "why_tests_cant": "one response stands for the answers to all signals; the worst signal is among infinitely many", "anchors": ["src/biquad/mod.rs:process", "src/delay_line.rs:read", "src/comb.rs:tick", "src/all_pass.rs:tick"]}
{"id": "C201", "title": "Clearing the buffer silences the effect", "statement": "get_ptr_slice_mut of a delay line, comb or all-pass hands out exactly the buffer it works in; writing zeros through it never fails and touches nothing else; and from then on the effect, fed with silence, is silent for ever.", "quantifier": "every effect, every state its use can leave it in, every buffer, every number of samples afterwards", "why_tests_cant": "what survives a clearing shows only after a whole buffer length of silence, and only for some earlier inputs", "anchors": ["src/delay_line.rs:get_ptr_slice_mut", "src/comb.rs:get_ptr_slice_mut", "src/all_pass.rs:get_ptr_slice_mut", "src/comb.rs:tick", "src/all_pass.rs:tick"]}
{"id": "C202", "title": "Different settings make different effects", "statement": "In exact arithmetic, the first three samples of what a low-pass, high-pass, all-pass or notch answers to a click determine its cutoff and its q, and those of a bell (of a gain other than one, boosting or cutting) its cutoff, its q and its gain: no two settings at one sample rate make the same filter. A bell of gain one returns what it is fed with, whatever its other settings. The answer of a comb to a click tells the length of its buffer, its dampening and its feedback, unless the feedback is 0 or the dampening 1, when it is a delay line.", "quantifier": "every pair of positive cutoffs, qs and gains, every positive sample rate", "why_tests_cant": "a collision of two settings is one pair among infinitely many", "anchors": ["src/biquad/butterworth.rs:setup_coeffs", "src/biquad/butterworth.rs:lowpass", "src/biquad/butterworth.rs:highpass", "src/biquad/butterworth.rs:allpass", "src/biquad/butterworth.rs:notch", "src/biquad/butterworth.rs:bell_boost_only", "src/biquad/butterworth.rs:bell_cut_only", "src/biquad/mod.rs:process", "src/comb.rs:tick", "src/comb.rs:set_dampening", "src/comb.rs:set_feedback"]}
{"id": "C203", "title": "Effects lose nothing", "statement": "In exact arithmetic, a chain of biquads, delay lines, combs and all-passes with nothing in it makes different signals of different signals, unless a biquad in it has no feed-forward at all, when it makes silence of everything; every filter design has some; and a biquad with b0 other than zero is undone by another biquad sample for sample. In floats an all-pass does make the same of some different signals.", "quantifier": "every chain, every pair of signals, every coefficient, setting, buffer length and cursor", "why_tests_cant": "that no pair of signals is confused is a statement about all pairs of infinite signals", "anchors": ["src/biquad/mod.rs:process", "src/delay_line.rs:read", "src/comb.rs:tick", "src/all_pass.rs:tick", "src/biquad/butterworth.rs:lowpass", "src/biquad/butterworth.rs:highpass", "src/biquad/butterworth.rs:allpass", "src/biquad/butterworth.rs:notch"]}
{"id": "C204", "title": "Latency", "statement": "What comes out of a biquad, delay line, comb or all-pass at some time depends, bit for bit and from any state, on nothing that goes in later; a delay line or comb moreover holds everything back for at least the length of its buffer. In exact arithmetic the latency of a chain with nothing in it is exactly the sum of the lengths of its delay lines and combs, as long as no biquad in it has a b0 of zero.", "quantifier": "every chain, every pair of signals, every time of the first difference, every coefficient, setting, buffer length and cursor", "why_tests_cant": "that nothing later matters is a statement about all pairs of infinite signals", "anchors": ["src/biquad/mod.rs:process", "src/delay_line.rs:read", "src/comb.rs:tick", "src/all_pass.rs:tick"]}
{"id": "C205", "title": "A comb with a feedback of one or more", "statement": "In floats a comb set to no dampening and a feedback of one, and fed with silence, repeats the finite samples it holds for ever, bit for bit up to the sign of a zero, whatever its settings were before. In exact arithmetic, at a feedback of one and any dampening but one, the sum of the buffer and a share d/(1-d) of the filter state is always what it was at first plus the sum of all inputs since. With a feedback of one or more and a dampening in [0,1), a signal that is never negative and whose sum is unbounded drives the output of a silent comb beyond every bound, and a click in it never dies away.", "quantifier": "every buffer length, cursor and content, every dampening and feedback in range, every input, every time", "why_tests_cant": "for ever, and beyond every bound, are statements about infinite runs; rounding might have worn the loop down", "anchors": ["src/comb.rs:tick", "src/comb.rs:set_dampening", "src/comb.rs:set_feedback"]}
{"id": "C206", "title": "A comb with a dampening of one", "statement": "Once its dampening is set to one, a comb returns its buffer and then every input after the length of the buffer, each with the same constant added: the filter state of that moment times the feedback. So it is a plain delay line, whatever the feedback, only if the filter was at rest. This holds exactly, and in floats bit for bit as long as nothing overflows (from rest up to the sign of a zero).", "quantifier": "every buffer length, cursor and content, every filter state and feedback, every input, every time", "why_tests_cant": "the constant depends on the history before and stays for ever", "anchors": ["src/comb.rs:tick", "src/comb.rs:set_dampening"]}
{"id": "C207", "title": "Panned signals in mono", "statement": "In exact arithmetic the channels of mono_pan add up to the sample and carry (1+a^2)/2 of its power, while those of stereo_pan, fed one sample on both sides, add up to the sample times the root of 1 + sqrt(1-a^2): right at the sides, louder the nearer the middle, by the root of two in it. Under both laws, further right means strictly softer on the left and louder on the right. In floats the channels of mono_pan add up to the sample to 2^-21 of it.", "quantifier": "every position in [-1,1], every sample (in floats up to 2^98 in size)", "why_tests_cant": "continuum of positions; all floats", "anchors": ["src/stereo.rs:mono_pan_unchecked", "src/stereo.rs:stereo_pan_unchecked", "src/stereo.rs:equal_power_pan_unchecked"]}
