# Formal model of embedded-audio-tools in Lean 4

The model covers every function of `/repo/src` (table below). Each property of `properties.jsonl` is a set of Lean
theorems about that model, listed in `MANIFEST.json` and in the table "Properties, one by one".

## Layout

* `lean/Verif/F32/…`   IEEE-754 binary32: bits, value, round-to-nearest-even, operations, and the theory about them.
* `lean/Verif/Model/…` one module per Rust source file or directory; every definition cites file and lines.
* `lean/Verif/Spec/…`  small specifications the theorems refer to (what a delay, an envelope, a filter, a blend is), and
  the contracts of external functions.
* `lean/Verif/Lemmas/…` helper lemmas.
* `lean/Verif/Props/…` property theorems `Cnn_…`, one module per area, each with a concrete case meeting its hypotheses.
* `tools/` generators of `properties.jsonl`, `MANIFEST.json`, `Verif.lean`, this file and the 5075-entry table.
* `seeded/LOG.jsonl` the wrong programs the theorems were tested against.

## Modelling decisions

* **f32** is a 32-bit pattern. Arithmetic is *exact IEEE-754 binary32*: decode to a rational, compute exactly,
  round to nearest, ties to even, with overflow to infinity, gradual underflow, signed zeros, infinities, NaN.
  Simplification: every NaN-producing operation yields the one canonical quiet NaN (Rust leaves the payload
  unspecified); bit-moving operations (`neg`, `from_bits`) keep payloads. Assumed: no flush-to-zero, no fused
  multiply-add, no x87 excess precision.
* **Exact arithmetic.** Purely arithmetic code is written once, generically over the operations, and used at
  `F32` (what the machine computes) and at an arbitrary field, ℚ or ℝ (what the formula means). A theorem about
  the second kind says so ("exact arithmetic"); it says nothing about rounding. C112, C114–C118 and C125 connect the two.
* **Integers.** `usize`/`isize` have a symbolic width (`Cfg.w`), overflow either panics (`Cfg.checks = true`,
  debug) or wraps (release). Casts are Rust's (`as`: saturating from float, truncating between integers).
* **Memory.** A memory is a finite map from block numbers to live blocks (lists of cells); a pointer is a block and
  an offset, or null. A read or write outside a live block is `Fault.ub`; a panic is `Fault.panic`. Both are data.
  Cells are whole `f32`s. Not modelled: volatile ordering, aliasing rules (stacked borrows), byte-level alignment,
  the debug assertions inside `core`'s unchecked functions.
* **Literals** are the f32 nearest to the decimal number in the source (`lit q` at `F32` rounds `q`), at a field the
  number itself.
* **External functions** (`micromath`'s `floor`, `sqrt`, `powf`, `powi`, `exp`, `log10`, `rem_euclid`): the crate's
  source is not in /repo, so these are parameters. A theorem that needs anything about one has the needed contract
  as an explicit hypothesis, and an example shows the contract is satisfiable. Contracts: `FloorContract` (exact up to
  2^23), `RemContract` (within a rounding of the Euclidean remainder), `PowiExact` (real arithmetic), `PowiNear`
  (within 2^-19 of the exact power, relatively), `SqrtRough` (a crude relative bound), `Log10Contract`, `PowfModerate`,
  `PowfMono`, `PowfBelow`.
* **Modelled from documentation, not from source:** `f32::clamp` (panics when min > max or a bound is NaN; NaN passes),
  `f32::is_sign_positive`, `iter().sum()` for f32 (its start value is taken as `0.0`; newer versions of core start at
  `-0.0`, which differs only when every summand is `-0.0`), and `tock-registers`' `Field` (`mask` and `shift`) as used by
  `src/float/conversion.rs`.
* **Mutation.** A method taking `&mut self` returns the new value; a failing call returns `Except.error`, so the state
  after a panic is not observable. `SoftPhaseAccumulator::set_freq(mut self, …)` takes `self` by value and is modelled so.
* Where the code violates a property a user would rely on, the property's English is kept, the negation is proved
  with a witness (`…_refuted`), the strongest true part is proved (`…_partial`) and, where useful, what the code does
  instead (`…_actual`).

## Checks on the model

These are tests, not proofs; they are about the fidelity of the model, which no theorem can establish.

* `tools/hw_check.txt` (run with `lake env lean` from `lean/`): the modelled `+ - * / < <= ==`, negation, `abs`, casts from and to
  `u32`, `i32`, `i16` agree bit for bit with the machine's binary32 arithmetic on 1000289 pairs (every pair of 17 special values,
  the rest pseudo-random, half of them with close exponents).
* `lean/Verif/Props/RepoTests.lean`: the assertions of the repository's own unit tests hold on the model, checked by the kernel
  at every build. Two tests that assert results of micromath itself are left out.

## What is not modelled

* `micromath` and `tock-registers` themselves (see above), `core`'s float formatting, `benches/`, and the `#[cfg(test)]`
  modules.
* `unsafe impl Send`/`Sync` (src/memory/mod.rs:18,26, src/memory/memory_slice.rs:72): no memory model of threads beyond
  the interleaving of accesses.
* Compiler optimisations, timing, and the code generated for the wrapping of `Volatile`-free pointer accesses.

## Trusted base

* Lean's kernel (4.33.0) and Mathlib as installed.
* The axioms `propext`, `Classical.choice`, `Quot.sound`, no others; the last section lists the axioms of each theorem.
  No `sorry`, `admit`, `native_decide` or `bv_decide`. `decide +kernel` is used for whole finite tables (the
  5075-entry table and the like) and for concrete witnesses; it is checked by the kernel.
* The binary32 arithmetic of `F32/Basic.lean` need not be trusted: `Spec/Ieee.lean` restates the standard in terms of the fields of the
  word, and `Props/Ieee.lean` proves that the model satisfies it (values, `roundTiesToEven`, signs of zeros, invalid operations,
  comparisons: `ieee_value`, `ieee_rounds`, `ieee_ops`, `ieee_invalid`, `ieee_compare`) and that nothing else does (`ieee_unique`).
* The reading of the Rust source embodied in `Verif/Model`, and the conventions above.
* The reading of the English properties embodied in the theorem statements.

## Disagreements between the code and what a user would expect

Each is proved about the model; the ids lead to the theorems.

* Memory: C04 (index near `isize::MAX`), C05 (offset+length wraps in release), C06 (window reaching the end is rejected),
  C08 (last whole index rejected from 33 samples on), C16 (shrinking `change_buffer` leaves the cursor outside),
  C62 (`lookup_bl_rect(0.25)` and `(0.75)` read past the table), C71 (wavetable reads past its end once per cycle),
  C120 (delay lines are `Copy` but copies share the buffer), C121 (slices outlive their arrays),
  C153 (wrapped float indices beyond 2^31 depend on the target).
* Interpolation: C11, C13, C19 (the Lagrange readers do not pass through the samples), C183 (the delay line's
  Lagrange read of a steady signal ripples by a twenty-fourth), C47 (NaN factor accepted), C126 (`lerp` between equal
  values leaves them, and is not monotone), C132 (the fraction of a delay is rounded with the cursor).
* Filters: C26 (`AllPass` is not all-pass), C201 (clearing the buffer of a comb does not silence it),
  C101 (a NaN stays in a comb for ever), C123 (a comb never falls
  silent: it rings on at 2^-148), C167 (nor does a stable biquad), C178 (cutoffs that change at every sample can blow a filter up), C195 (below a 40000th of the sample rate a low-pass does not work, a click can make it grow for ever), C196 (no cutoff up to half the sample rate
  acts above 0.47 of it), C171 (a bell's gain of 0 is quieter than one of -1), C136 (a low shelf leaves the range of its gains unless q is 1/sqrt 2).
* Numbers: C40, C43, C45 (NaN and oversized mantissas), C54, C111, C192 (Simpson weights: integrals come out 5/3 too large),
  C56 (`tanh` is not monotone, NaN beyond 2^64), C57 (`sinh(-0)`), C60 (`-32768/32767`), C94 (`lookup_sin` off by up to
  0.2), C110 (`sinc` of tiny arguments), C164 (`sin_i16` dips by single units).
* Oscillators: C67, C69 (phase rounds to 1.0, rectangle outputs 3.0), C72 (no Nyquist check), C97 (negative shifts), C128
  (phase drifts linearly), C159 (octaves drift apart), C194 (from the sample rate on the phase creeps backwards).
* Level: C76 (infinite samples at the pan extremes), C79 (soft clippers `todo!()` inside [-1,1]), C80 (NaN).
* Envelope: C82, C84, C87 (NaN with sub-sample times), C86 (stale level), C88, C176 (retrigger jumps), C89 (2 s limit), C90
  (`set_sr` rescales nothing).
