C01 block memory with `Except Fault`; case analysis on the bound
C02 histories of assigns as lists; induction on the history against a plain map from cells to values
C03 `rem_euclid` on `isize` of symbolic width; integer arithmetic
C04 as C03; witness index, partial for all indices that do not overflow
C05 symbolic-width wrapping addition; witness in release, partial otherwise
C06 case analysis on offset+length against the length
C07 every f32 position incl. NaN/inf; saturating casts, monotone rounding of `len-1`
C08 exactness of whole numbers below 2^24; the margin test evaluated in rounded arithmetic
C09 float comparison against the rounded length; blend spec `IsBlend`
C10 `floor` contract; circular indexing; blend spec `IsBlend`
C11 generic Lagrange kernel at window n; witness for every n ≥ 4
C12 bounds of the window loop for every position
C13 four-point kernel; exact value at each position
C14 null pointer with length 0; case analysis
C15 refinement of cursor+buffer to the list of past writes; induction on the history
C16 invariant cursor < len over histories of all calls; witness with a shrinking `change_buffer`
C17 ring-buffer invariant, integer arithmetic modulo the length
C18 C17 with C10
C19 C17 with C11
C20 history induction in steps of the buffer length, any arithmetic
C21 C20 and monotone rounding: 2M is a fixed bound of the rounded recursion
C22 C20 and the convex-combination bound
C23 C20 with dampening 0
C24 history induction, any arithmetic
C25 C24 and monotone rounding
C26 closed form of the impulse response; its energy summed as a geometric series
C27 induction on the input; field algebra
C28 C27 and linearity by induction
C29 NaN propagation through both state variables
C30 induction with signed zeros
C31 z-transform evaluated at ±1; second theorem by running `process` on the eigen-input
C32 as C31
C33 complex conjugate symmetry of numerator and denominator
C34 as C31, plus the zero pair on the unit circle
C35 Jury triangle conditions; decay through the modal form of the recursion
C36 reciprocal transfer functions; induction on the run
C37 as C31
C38 byte loop unrolled, bit arithmetic on 32-bit words
C39 mask/shift algebra on every word
C40 decoding of the fields against `F32.val`; witness for the oversized mantissa
C41 exactness of scaling by powers of two and of truncation
C42 from C41
C43 case analysis on comparisons; witness NaN
C44 bit masks on the mantissa field
C45 as C44, witness NaN
C46 case analysis on classes of floats
C47 witness NaN factor; number otherwise by error analysis
C48 exactness of ×0, ×1 and Sterbenz-free algebra of the code's formula
C49 rounding-error analysis
C50 uniqueness of interpolating polynomials (Mathlib's Lagrange basis)
C51 float comparison with the rounded node number
C52 both kernels unfolded to the same sequence of roundings
C53 field algebra; two roundings
C54 induction on the number of intervals; closed form of the sum
C55 Taylor bounds of the real tangent on [0,1]
C56 closed form of the rational function; float analysis with overflow cases
C57 hyperbolic identities from exp; sign symmetry in floats
C58 interval arithmetic over the loop, all phases and degrees
C59 Taylor remainder of the real sine against the exact rational polynomial, plus truncation error
C60 float analysis of the scaling; witnesses
C61 remainder contract and the table length
C62 monotone rounding of the index; the two arguments found exactly
C63 kernel evaluation of the whole table, then index arithmetic
C64 integer arithmetic for every table size
C65 induction on the number of calls, arithmetic modulo 2^32
C66 induction on histories with setters
C67 exact set of phases that round to 1.0
C68 monotone rounding over all accumulator states
C69 as C68; witness 3.0
C70 rounding-error analysis; monotonicity of every rounded step
C71 exact set of phases that leave the table; reachability for every table
C72 case analysis on comparisons; witnesses
C73 relative error of two roundings and a truncation
C74 case analysis
C75 monotone rounding; field algebra
C76 bit-level symmetry of negation; witness infinity
C77 real square root
C78 case analysis on clamp
C79 case analysis; witness
C80 `Log10Contract`; case analysis
C81 real logarithm and power from Mathlib
C82 invariant over all histories of calls; witness
C83 case analysis of every call in every state
C84 variant: phase grows by a minimum step; witness
C85 invariants over histories
C86 invariant release level ≤ output; witness
C87 invariant
C88 witness; exact value after a retrigger
C89 two roundings and the clamp
C90 setter commutes with every later sample; witness
C91 exact condition on the clamp bounds
C92 C59 plus range reduction error
C93 as C92 with the shifted argument
C94 closed form of the table function; real sine bounds
C95 C92 at the normalized phase
C96 induction on histories with C68–C70, C95
C97 casts of shift·2^32; exact and witness
C98 induction on histories with C71
C99 C20/C22 generalised to settings varying in time
C100 refinement of C15/C20/C24 restarted on the new buffer
C101 induction on time: the filter state stays NaN
C102 induction in steps of the buffer length
C103 induction on ticks in each stage
C104 C103, accumulated rounding error of the phase, power contracts
C105 C103 and monotone rounding, monotone power
C106 frame property of each setter; commutation with ticks
C107 intermediate value of the tangent error; transfer function at the warped frequency
C108 modal decay of the transient plus the steady state
C109 modal form, geometric series
C110 C92 divided by x; witness
C111 C54's weights, accumulated rounding errors, bounds of the real integral
C112 field algebra; rounding-error analysis; bit symmetry
C113 block memory; index arithmetic
C114 modal norm contracts by the pole margin; rounding error absorbed; C114_fine counts the rounding of the output once and needs a margin of 2^-20 only
C115 as C114 for the difference of the two runs
C116 propagation of error intervals through the design formulas, then the Jury triangle with margin; below sr/3000 half-ulp bounds per step, where the error of norm cancels
C117 error intervals through the polynomial
C118 C116 gives the margin, C114 the bound; below sr/600 half-ulp errors of each design step give a margin of 2^-20 and C114_fine the bound
C119 frame lemmas: a tick writes inside its own slice only; induction over the schedule
C120 kernel-checked run of two copies on one buffer; the partial theorem from the frame lemmas
C121 the model frees the block; the read is Fault.ub
C122 induction over the ticks with the rounding of every product and sum bounded by powers of two
C123 kernel-checked run of 361 ticks to a fixed point, in stages of 20; for the bound, each round of the buffer shrinks a pair of bounds on cells and filter state
C124 each round of the buffer halves the bound on the cells, rounding included; the last unit rounds to zero
C125 linear error recursion with a contraction factor below 1, invariant over the ticks
C126 kernel-checked witnesses; for the partial claims monotonicity of rounding, step by step
C127 induction over the ticks on the queue form of the buffers
C128 the step is a whole number: its distance from the ideal accumulates; C73 bounds it from above, the witness from below
C129 truncation to nested power-of-two grids
C130 rounding of gains and products bounded, then the contract of the square root
C131 from C92 and C93
C132 the float sum of cursor and offset bounded (actual) or exact (partial); kernel-checked witness
C133 rounding error of each factor of each term propagated; the cubic by C50; the overshoot by the signs of the basis polynomials
C134 the squared magnitude as a rational function of the real part, then polynomial inequalities
C135 same, with the half-power condition factored
C136 same; the witness at the centre frequency
C137 a particular solution of the recurrences (C20, C24) plus geometric decay of the free motion
C138 tanh enclosed between two of its convergents by monotonicity of the difference; rounding of each step propagated
C139 one invariant per part (C65, C99, C20, C118, C78) carried through the composed step
C140 rounding commutes with doubling, so b1 is exactly twice b0; the all-pass by reversal of the coefficients
C141 relative error of numerator and denominator; kernel-checked witnesses
C142 induction over the processors: the orbit of each is the same in every memory that holds its queue (frame lemma of C119)
C143 C142 with the bounds of one comb and one all-pass carried along the signal flow
C144 kernel-checked integer rotation and Simpson sum for the whole table; Simpson's error through sinc as a mean of cosines
C145 chord error of a function with Lipschitz derivative, index rounding, table error (C144), rounding of the blend
C146 chord error of a function with Lipschitz derivative, phase and index rounding, rounding of the blend
C147 filters as quotients of power series with one denominator
C148 X^2n + 1 through the roots of unity; decaying inputs through stable filters
C149 identity of power series after clearing denominators
C150 closed form of the counter, cancellation modulo 2^32
C151 one period visits a residue class once; half-wave symmetry; counting of edge phases
C152 a relation between the two monadic programs kept by bind
C153 index arithmetic that stays below 2^31 is exact on both targets; far indices fault on both
C154 a sign relation on floats, memories and programs, kept by every operation
C155 two nested contractions, one per pole, with the rounding of each step as a disturbance
C156 margins of the rounded coefficients, then C114 or C155; induction over the chain; below sr/600 with the margin of C118_bass
C157 exactness of scaling below 2, a 32-entry table of saturated results, bits of the word
C158 a relation kept by every call
C159 scaling by powers of two commutes with rounding (F32/Scale.lean); floor of the scaled product
C160 scaling by powers of two commutes with rounding; relations between the two runs kept by every call
C161 case split on the overflow of each entry
C162 coefficient errors divided by a lower bound of the denominator on the unit circle; Spec/Analog.lean holds the analogue sections
C163 the generic code run on marked floats; one parametricity argument relates that run to the plain run and to the louder run
C164 the polynomial rewritten in natural numbers (proved the same), one pass over its whole domain in the kernel with the highest and the last value carried along
C165 the counter runs over equally spaced values in a period (C142), whose squares sum in closed form; the float wave stays close to the ideal one (C151), and close signals have close powers
C166 rounding is monotone, so are the division, the product and the saturating conversion; distinct pitches from the relative error of each step
C167 one pole's combination of the two states contracts (as in C155), now from any state and with the rounding as an input; the stuck state is reached by 262 steps in the kernel and is a fixed point
C168 errors carried through the four operations of decibels.rs; Lipschitz bounds of log10 and of 10^x over the reals join the two directions
C169 rounding is monotone, so the rate falls with the time and the phase of the slower envelope stays behind; one relation between the two envelopes is kept by every tick
C170 the squared magnitude of each design in closed form (C134, C135), compared at the same point of the unit circle; in floats, every term of fast_tan is monotone and so is each rounding
C171 the same closed forms for both branches of bell; the witness is the centre of a bell at gain -1 and at gain 0
C172 every rounding is monotone, and so is every step of the comb as long as its factors are not negative; one relation between the two runs is kept by every tick
C173 the samples of a period are the wave at T equidistant phases (C151); the harmonics of the ideal waves in closed form by geometric sums of roots of unity, the others by the distance to them; Parseval's identity for the total
C174 a recurrence with complex roots cannot keep one sign (its ratios fall by a fixed amount); with real roots that are not negative the increments stay non-negative; the high-pass by its running sum
C175 the recurrence of C20 with 1 - 0 = 1 exact, one rounding per echo; the time by bounds on exp and log with the roundings as a relative and an absolute error
C176 refuted by a gate opened twice; for gates opened when idle an invariant says that the last sample is the curve of the current stage at the current time, and one step of time moves the power by at most W
C177 a stored energy (a quadratic form in the states of the filter) that grows by at most input energy minus output energy in each step; totals because the states of a stable filter fade
C178 refuted by running the floats in the kernel; the partial theorem carries the bound of C163 over each change of settings, paying a factor for the change that the hold makes good; the free one is a bound on |y| by |a1| and |a2|
C179 a common quadratic form in (z1 + z2, k (z2 - z1)) that one step of every filter with cutoff in the octave shrinks by a fixed factor (the state map is a Cayley transform); in floats the rounding is paid from that loss, and rounded coefficients are those of a slightly different cutoff and q
C180 the recurrences of C20 and C24; a weighted sum of the energy in the buffer and of the low-pass state as storage, one sum of squares per step
C181 C132_actual for the position, the buffer contents from C17's writes, the chord and Lipschitz bounds of a smooth signal from C146
C182 the designs are the analogue sections at tan(theta/2)/k, whose common denominator has the argument pi/2 - arctan(Q(1/x - x)); C108 turns gains into steady-state signals, C162 carries it to floats
C183 the five-term kernel in floats (four factors a term, Near), Rolle four times for the interpolation error, C132's position; refuted by a steady 1 through eight cells, evaluated in the kernel
C184 the free recurrence with complex roots solved in closed form; the six designs share their poles; the series of log((1+a)/(1-a)) for the time; C155 carries it to floats
C185 the low-pass factored into size and lag (arctan); the intermediate value theorem on length times pitch plus lag finds each partial; C137 turns gains into settled outputs
C186 three combs with the same contents side by side: floats against exact rationals (C125), rationals against the real tone (differences of inputs shrink by the feedback), the real comb against its steady state (C137, C185)
C187 the output one period later differs by the trace of another state, which dies geometrically, so the outputs of successive periods have a limit; floats have finitely many states
C188 each rounding adds 2^-24 at the scale of cosh, which is at least 1
C189 clipping is a projection onto an interval; the crossfade is bilinear in position and signals, its rounding bounded by C112
C190 the two (four) relative errors of 2^-24 stay below half a sample
C191 subadditivity of t^p for p <= 1 and Bernoulli's inequality for p >= 1 give the modulus C176 asks for
C192 the rule is 8/3 of the trapezoidal rule less the trapezoidal rule on half the intervals, and Mathlib bounds the error of both
C193 each read is a blend of cells up to three roundings (C132), so one pass takes a bound B to (A + cB)(1 + 2^-21)
C194 complementary steps keep the phases opposite modulo a turn (C96, C66); two roundings bound the sum of the steps, the cast to u32 saturates from sr on
C195 1 + a1 + a2 is a multiple of 2^-24 while the numerator is below 2^-25; one filter is followed for 18120 samples by integer arithmetic in the kernel, then doubling commutes with rounding
C196 the arctangent of the polynomial against its argument by comparing derivatives; the numerator of the notch has one pair of zeros
C197 f + f g stays in one octave after rounding, so C179 bounds the filter; envelope and oscillator by their own invariants
C198 the delayed value is itself a run of the filter from one state; runs from two states come together (C167)
C199 each stage is a quotient of power series in the one-sample delay; a chain has the product, which is commutative
C200 the quotient of power series of C199 applied to 1 is the impulse response; multiplying by it is convolution
C201 the fill loop by induction over the places written; silence by induction in strides of the buffer length; the comb by one tick, a clearing and two ticks
C202 the three samples give b0, a1 and a2 one after the other; those give k^2 and k/q; fast_tan is strictly increasing
C203 every stage answers a click, so its numerator is not zero, and power series over a field have no zero divisors; the float witness is a click followed by 2^-60
C204 the states agree as long as the inputs did; for the chain, the click answer of a stage starts at its latency and answers are convolutions
C205 multiplying by one and adding zero is exact; the charge of a comb changes by the input and (feedback - 1) times the filter state
C206 the filter state times one plus zero is itself
C207 the square of the sum of the two roots; the float sum is a crossfade of the sample with itself, C112
