# Design of the formal model of SECUER-pok

This file was written before the proofs; sections are updated as the model grows.

## 1. Trusted base

* Lean 4.33.0's kernel.
* The three standard axioms `propext`, `Classical.choice`, `Quot.sound`
  (checked with `#print axioms`; no `sorry`, no own axioms, no `native_decide`, no `bv_decide`).
* That the hand-written Lean definitions say what the C code says. Every
  definition cites file and lines; simplifications are stated at the definition.
* The C semantics we assume: LP64 machine, two's complement, `char` is 8 bit,
  C11 `fscanf`/`fprintf` in the "C" locale, sequentially consistent atomics.

## 2. What is modelled

Layered, bottom to top. The modules named are below `lean/Verif/`. Every definition of a `Model` file cites the lines it
models; simplifications are stated there.

| Layer | Code | Lean |
|---|---|---|
| words, multiprecision, Montgomery arithmetic | `config.h`, `P*/generic/fp_generic.c` (portable backend, 64-bit digits, all four primes by one parameterised model) | `Word/Model` (`BitVec 64` digits, bounds-checked arrays) |
| the same with 32-bit digits (`_X86_`, `_ARM_`) | the same files, `RADIX` = 32 | `Word32/Model` (`BitVec 32` digits), `Word32/Build`, `Word32/Ladder3` (functions that read a scalar digit by digit) |
| the portable field arithmetic and the curve functions on memory | `fp_generic.c`, `fpx.c`, `ec_isogeny.c`, parts of `poik.c` | `CMem/Model` (digit by digit, with pointers), `CMem/Curve`, `CMem/Loops`, `CMem/Ladder`, `CMem/Poik`, `CMem/Sqrt`, `CMem/Bytes` (copies of structures byte by byte), `CMem/Models`, `CMem/Strat` (the strategy loop of both isogenies), `CMem/IsogA`, `CMem/Random`, `CMem/IsogB`, `CMem/Check`, `CMem/Decode` (strings of bytes), `CMem/Chain`, `CMem/Response`, `CMem/Verify`, `CMem/Walks`, `CMem/Pack`, `CMem/Generate`, `CMem/Grid`, `CMem/Instance`, `CMem/Prove`, `CMem/Test` (`test.c`), `CMem/Cli` (`prove.c`, `verify.c`), `CMem/Alloc` (their and `test.c`'s calls of `malloc` and `free`) |
| assembly routines of the default x86-64 build | `P*/AMD64/fp_x64_asm.S` (Linux, `_MULX_`, `_ADX_`), their callers in `fp_x64.c` and `fpx.c` | `X64/Model` (instructions), `X64/Code*` (the code, macros as functions), `X64/Funcs`, `X64/Backend` |
| assembly functions of the ARM64 build | `P*/ARM64/fp_arm64_asm.S`, their callers in `fp_arm64.c` and `fpx.c` | `Arm/Model` (instructions), `Arm/Code*` (the code, macros as functions), `Arm/Funcs`, `Arm/Backend` |
| GF(p), GF(p^2), encoding, random elements, square roots | `fpx.c` (the functions used by `poik.c`), `poik.c` 85-215 | `Word/Model` |
| constants, primality | `P434.c` ... `P751.c` | `Word/Model` (tables), `Field/Prime`, `Field/Level` |
| x-only curve arithmetic, isogeny formulas | `ec_isogeny.c` | twice: over a field (`Curve/Model`), on words (`WCurve/Model`) |
| models, ladder, isogeny chains, curve check | `poik.c` 246-1083 | twice: over a field (`Curve/Model`, `Curve/Algo`), on words (`WCurve/Model`) |
| commitments, challenge, responses, `Generate`, `Prove`, `Verify` | `poik.c` 932-949, 1086-1239, 1389-1500 | twice: over GF(p^2) (`Protocol/Model`), on words (`WProtocol/Model`) |
| challenge sampling | `poik.c` 225-242, 1154-1169 | `Challenge/Model` |
| SHAKE256 | `sha3/fips202.c` | `Keccak/Model` |
| threads | `poik.c` 1288-1383 | `Threads/Model`, interleaving semantics |
| text format | `poik.c` 1508-1673 | `Text/Model` |
| command line | `prove.c`, `verify.c` | `Cli/Model` |
| randombytes, ct_compare, ct_cmov, progress bar | `random.c`, `fpx.c`, `poik.c` 1245-1268 | `Util/Model` |
| key exchange | `sidh.c`, `LADDER3PT`, `inv_3_way`, `get_A`, `xTPL_fast` of `ec_isogeny.c`, `is_sqr_fp2` of `fpx.c` | `Sidh/Model`, over GF(p^2), with the `memcmp` of the validation on the words; `Sidh/WModel`, on words with either arithmetic; `Sidh/WRefine` relates the two |
| KEM | `sike.c` | `Kem/Model`, the key exchange as a parameter; with `sidh.c` put in for C76 |
| choice of parameters | `scripts/statistical_parameters.py` | `Stat/Model`, in the reals |
| Sage verifier | `sage-impl/verify.sage` | `Sage/Model`, `Sage/Verifier`; Sage's library is a parameter (`Lib`, `Lib.OK`) |

How the two versions fit together: the mathematics (group law, kernels, point counts, completeness, soundness) is proved
about the functions over a field; `WCurve/Refine*`, `WProtocol/Refine` prove that the functions on words end in the same
way - same value up to representation, same abort, same undefined behaviour - for all inputs, random bytes and contents of
uninitialised memory. C66 states the result and transfers no-UB, verdict, soundness and completeness to the words.

Randomness is an explicit tape (bytes on words, elements over the field). Loops that run until a random value suits are
recursions over the tape; a tape that runs out is the outcome `starved`. Uninitialised memory is an arbitrary parameter.

The comparison `fp_equal` is a parameter (`FpEq`) of the word-level functions whose only instance in the code is
`fpEqual`; this lets C48 say that its answers out of range do not matter.

The routines that the assembly replaces are a parameter too (`Arith`): all code above them is modelled once and runs with the
portable routines (`Arith.portable`), with the assembly (`X64.arith`, `Arm.arith`) or with the portable routines on 32-bit digits
(`Word32.arith`). `ArithOK` and `RandOK` (the range of `fprand`) are what the refinement proofs need of them.

The functional models take and return arrays, so they do not show whether a function still works if an output array is also an input.
`CMem` models the same functions as programs on one memory (a function from addresses to digits) that get addresses, read and write it
digit by digit in the order of the C text, and put their local arrays on a stack. C95 proves that they leave the functional results, in
particular for the in-place calls that the code makes. The stack is idealised: it grows upwards without limit, and a caller's variables lie
below it. Scalar locals and the constant tables are not in memory. C96 does the same for square roots, comparisons and the choice of models,
C97 for random points, `Isogeny_A` and `Isogeny_B`; there the arrays `pts` are in memory, `pts_index` and the strategy tables are lists.
C98 for strings, `Check_Curve`, `Unpack_Chain_A` and `Unpack_Chain_B`; the strings of bytes are in the same memory, at byte addresses, not necessarily aligned.
C99 for `Unpack_Response`, `Challenge` and `Verify` without threads; SHAKE256 is the functional model of C13/C14, called on the bytes in memory.
C100 for `Random_Point_AB`, the random chains and `Generate`,
C101 for `Instance`, `Pack_Response` and `Prove`.  The result of `malloc` in `Prove` is an argument of the model: an aligned address below
the stack, or failure.
C102 for `test.c`, with the results of all its calls of `malloc` as arguments.
C104 for `main` of `prove.c` and `verify.c`; there `Parse` stores what it has read after it has read all of it.
C105 adds `free` and the list of allocated blocks to these programs; `malloc` is an arbitrary function that keeps the promises of the C standard.
The assertions are compiled out, as with the flags in the Makefile (`-DNDEBUG`).

With 32-bit digits the C text above the field arithmetic is the same. It treats arrays of digits as a whole, except for the functions
in `Word32` (C92): the byte conversions, `fp_lt`, the conditional swap, and reading a bit of a scalar. So the models of this code on
arrays of 64-bit words describe the same memory, two digits to a word, and are used for this build too (`split`, `join`). `size_t`
has 32 bits there; the values that the code keeps in one are far smaller.

## 3. What is not modelled

* The assembly without `_MULX_`/`_ADX_`, the Windows build. The default x86-64 build uses the assembly of
  `X64/Code*` instead of `fp_generic.c`; C69, C70 compare the two, C42-C51 and C66 are stated for the portable build, C71 for both,
  C86 for the ARM64 build with p434 and p610.
* In the x86-64 model: flags other than CF and OF, accesses that are not to aligned 64-bit words, instruction encodings, interrupts.
* In the ARM64 model: flags other than C, accesses that are not to aligned 64-bit words, instruction encodings, interrupts. The
  constant tables are separate from the memory that the code can write.
* Big-endian builds; the alignment and the sizes of types other than `digit_t` in 32-bit builds.
* Key compression (`compression/`, `#ifdef COMPRESS`).
* Sage's library as used by `verify.sage` (torsion points, `lift_x`, `isogeny`, `set_order`): assumed to do what `Lib.OK` says;
  `someLib_ok` shows that this can be met. The command line of the script and what it prints.
* The other scripts (`level_graph_gen.sage`, `mixing_time.ipynb`, `zk-proof-of-isogeny-knowledge.sage`, which says of itself that it is
  out of date), what `test.c` prints except its progress bar, its clocks, the KAT programs.
* Timing / constant-time behaviour, cache behaviour, memory layout, stack size; except that the addresses accessed by the assembly
  functions do not depend on the data (C91).
* Computational hardness, the random-oracle assumption; only exact statements are proved.
* libc, the OS scheduler's fairness, `malloc` failure other than the explicit branch.

## 4. Conventions

* `Except`-like outcomes are explicit: undefined behaviour and `abort()` are separate constructors, never defaulted.
* Specifications live in separate definitions (`Spec` sections/files) that do not mention model helpers.
* Property theorems live in files `Verif/Props/*.lean`, named `Cnn_*`. Next to each one an
  `example` shows that its hypotheses can be met by a concrete, non-trivial case.
* Partial results carry the suffix `_partial` and say what is missing.

## 5. Plan per property

| Id | Model | Proof method |
|---|---|---|
| C01-C06 | text layer: characters = bytes (`Nat`<256), `fprintf`/`fscanf` directives as functions on the remaining input | round trip by induction over fields; prefix lemmas ("parser is monotone in its input") |
| C07 | writes as a list of attempts with an arbitrary success oracle | induction; concrete counterexample for the tag line |
| C08-C11 | `sample_ternary`, `Challenge` as loops with explicit out-of-bounds outcome | loop invariant; equality with a streaming spec; counting |
| C12, C20 | encodings as byte lists | injectivity of fixed-width concatenation |
| C13, C14 | Keccak on 64-bit lanes; sponge over byte lists | per-round symbolic equality with the theta/rho/pi/chi/iota spec; induction over blocks |
| C15, C19, C21-C24 | protocol functions with lower layer as parameter | case analysis, induction over repetitions; existence of runs (`Curve/Can*.lean`, `Protocol/Runs.lean`): every randomised routine has random values for which it returns, whatever follows on the tape |
| C16-C18 | interleaving semantics | inductive invariant, variant function |
| C25 | buffer as list, index arithmetic | direct |
| C26 | integers | powers inequality via rational approximation, all exponents |
| C27-C29 | `Check_Curve` over a tape; group from Mathlib's Weierstrass curves | loop invariant: evidence subgroup; Lagrange + interval argument; Hasse's bound proved by Manin's elementary method in `Curve/Manin.lean` |
| C30-C32 | formulas over a field | Mathlib's group law on Weierstrass curves, `field_simp`/`ring`/`linear_combination` |
| C33-C35 | formulas over a field | algebraic identities |
| C36, C37 | formulas over a field | algebraic identities modulo the kernel relation |
| C38 | order checks | from C30/C31 |
| C39 | loops with explicit bounds outcome, tables as data | generic refinement theorem "strategy = naive chain"; table well-formedness by kernel evaluation of the complete finite table |
| C40 | chains | group-theoretic argument about cyclic kernels + refinement |
| C41 | residues mod 2^e | bijection of units |
| C42-C46, C48, C49 | word-level model | value-function refinement to `ZMod p`; C48 for the callers: refinement for every comparison that agrees in range |
| C47 | field-level model | Euler criterion in GF(p^2) |
| C50 | constants | kernel evaluation for the finite tables; primality by a p+1 (Lucas-type) certificate proved sound in Lean |
| C51-C53 | direct | induction |
| C54, C55 | decision logic of `main` | case analysis on top of C01 |
| C56 | challenge-input layout of both implementations | length argument |
| C57, C58 | KEM with key exchange as parameter | case analysis |
| C59-C61 | curve check over a field | C27-C29; point count of `y^2 = x^3 + x` |
| C62 | `Verify` over tapes and memory contents | verdict = validity predicate free of both |
| C63 | grid of `Instance` | kernels of isogenies, uniqueness of the isogeny with given kernel |
| C64 | hiding strings on the tape | induction over repetitions |
| C65 | decision logic of `main` with buffered output | case analysis |
| C66 | word-level protocol | refinement relation on the tape monad (`Ref`), function by function |
| C67 | threaded prover and verifier | locality of the randomised functions (`Protocol/Local`), cutting and joining tapes, C16-C18 |
| C68 | progress of `Check_Curve`, `Verify`, `Generate`, the verify tool | Hasse's bound and the count of the torsion over the closure give a point that is not killed by p+1; on singular curves the formulas compute in the multiplicative group (`Curve/Can4`) |
| C69, C70 | x86-64 machine with addresses, permissions, flags that can be undefined | a symbolic executor (`X64/Sym`): memory areas and offsets, words as linear combinations of variables, one equation per carry; proved sound for every state (`X64/Sound`, `PolySound`, `StepSound`, `Call`); its finite runs on the routines are evaluated by the kernel (`X64/Spec*`), with hints where a carry is dropped |
| C71 | word-level protocol over either build | the refinement proofs of C66 are about any routines with `ArithOK`; the assembly has it by C69, C70 |
| C72 | whole Sage verifier beside the C verifier | invariant between the two chain loops (`Sage/Agree`): Sage pushes a torsion basis through the isogenies, C a point of the kernel of the dual; reading by induction over the file (`Sage/Read`) |
| C73 | whole Sage verifier | induction over the chain; a subgroup of order l^n not containing the l-torsion is cyclic (`Sage/Sound`) |
| C74 | whole Sage verifier | construction of the string and its division by induction over the challenges; chains exist by counting torsion (`Sage/Library`) |
| C75-C79 | key exchange over a field, tables as data | three-point ladder by invariant; strategy = chain as in C39; the two composites have the same kernel and normalisation, so the same target; generators multiplied out in the kernel (complete finite tables); validation: order and independence from the formulas, singular curves excluded by the shape of the 3-division polynomial; number of points: points of the curve and of its twist counted together, divisibility, Hasse's bound and the relation of Frobenius to multiplication by p |
| C80 | provers as arbitrary functions from the XOF output to proofs | acceptance fixes the tags; vectors of trits in which no place takes all three values number at most 2^reps; strings with a given vector number at most 256^m/3^reps by induction on m; then C19 |
| C81, C82 | key exchange and KEM on words | refinement of the model over the field function by function (`Sidh/WRefine`), ranges tracked; then C75-C79 |
| C83, C84 | the script in the reals | monotonicity of the bounds, comparison of powers of integers |
| C85 | ARM64 machine with addresses and permissions | the symbolic executor of C69 for this machine (`Arm/Sym`, `Arm/Sound`, `Arm/StepSound`, `Arm/Call`), the polynomial part is shared |
| C86 | word-level protocol with the ARM64 functions | `ArithOK` from C85, then as C71, C81 |
| C87, C88 | the same code | the checker proves the exact number stored (`Arm/MulExact`); the rest is arithmetic and a witness |
| C89, C90 | the same machine | induction over the instruction list: registers read and written, stores through one register (`Arm/Regs`) |
| C91 | the same machines, with the sequence of accessed addresses | two runs side by side: the registers that depend on the pointers alone (`X64/Trace`, `Arm/Trace`) |
| C92 | 32-bit digits beside 64-bit digits | values of both arrays; the exact quotient of the reduction is unique |
| C93 | word-level protocol with 32-bit digits | `ArithOK` and `RandOK` from C92, then as C71 |
| C94 | the same functions on elements out of range | exact results of the multiplication and the squaring for large components (`Word32/Wide`, `Out610`, `Out751`), a witness computed in the kernel |
| C95 | memory model of the portable build | loop invariants: what the loops leave in memory is the functional result, for equal or disjoint arrays (`CMem/Basic`, `Mul`, `Fpx`); sequences of calls as lists of operations on variables (`CMem/Ops`, `Sim`) |
| C96 | memory model of the portable build | as C95, with operations on halves of elements of GF(p^2) (`CMem/Sqrt`) and a byte view of the same memory (`CMem/Bytes`); combined with the refinement of `WCurve` and the specification of the models |
| C97 | memory model of the portable build | the loop state on memory is related to the state of the loop on values (`CMem/Strat`: an invariant with the stack of intermediate points); a run on a tape of random bytes is related to the run on values (`ResT`); combined with the refinement of `WCurve` and C38 |
| C98 | memory model of the portable build | `memcpy` by induction on the bytes; the chain functions on memory are related to those on values for some contents of the uninitialised variables of `Check_Curve`, on which nothing depends (C29); combined with the refinement of `WCurve`, C27, C28 and C40 |
| C99 | memory model of the portable build | a run on memory is related directly to the run of the protocol model over the field (`FRes`); the memory of the caller is described byte by byte (`BF`: which intervals may have changed); the loop over the responses and the sampling loop by induction; combined with C13, C14 and C15 |
| C100 | memory model of the portable build | the loop of a random walk is proved once, for a step that may be the one of `Random_Isogeny_Chain_A` or `_B` (`WalkOk`), by induction on the number of steps left; the result is related to the run over the field as in C99 |
| C101 | memory model of the portable build | the grid of `Instance` by induction on its rows and columns, the loops of `Prove` by induction on the repetitions left, each related to the run over the field (`FRes`); the verdict then follows from C24 and C99 |
| C102 | memory model of the portable build | the steps of `test_poik` in sequence from C99-C101, the benchmark rounds by induction on their number; the bar by cases on whether it moved |
| C103 | memory model of the portable build, reference verifier | what both verdicts of C102 mean by C15, injectivity of the challenge input (C12), and the layout of the proof around byte 345, by cases on the prime and the first tag |
| C104 | memory model of the portable build | a run on memory is a run of the tools of `Cli/Model` (C54, C55): `Parse` leaves a proof structure that holds what was read, by induction on the responses; then C99-C101 and the frame of each call |
| C105 | heap of `prove.c`, `verify.c`, `test.c` | a run with the list of blocks is a run on memory (C102, C104) with the blocks that `malloc` returns; the list at the end is compared with that at the start, in `test.c` by induction on the rounds |

C72 has the hypothesis that no chain goes through a curve with j-invariant 0 or 1728: there the two programs may choose
isomorphisms that differ by an automorphism, so that one of them sees a step back and the other does not. The example beside the
theorem meets the hypothesis with chains that fail at their first step; chains that are accepted and meet it are not exhibited
(this would need the isogeny graph near these two curves).

The checker of C69, C70 and C85 is not trusted: `check_sound` (`X64/Call`, `Arm/Call`) says that whenever it answers yes for a routine, then every
call of the routine from every state that meets the convention behaves as claimed. The kernel evaluates the checker on the
instruction list (`decide +kernel`); no sample inputs are involved.

Nothing of the code was built or run for this work, with one exception by oversight: `scripts/statistical_parameters.py` was run once
while C83 was prepared. The proofs do not use its output.
