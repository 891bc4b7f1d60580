{"id": "C01", "title": "A dumped proof parses back to itself", "statement": "If Dump writes a proof whose response tags are all -1, 0 or +1, then Parse on a file that starts with that text succeeds and yields exactly the same proof (every byte of E0, E1, every tag and every field of every response), whatever follows in the file.", "quantifier": "all proofs with legal tags, all four parameter sets, all trailing file contents", "why_tests_cant": "The proof has tens of kilobytes of free bytes; a test round-trips a handful of honestly generated proofs and never the arbitrary byte patterns or trailing data a peer can supply.", "anchors": ["c-impl/PQCrypto-SIDH/src/poik.c: Dump, Parse, Dump_Fp2, Dump_Bytes, dump_packed_fp, Parse_Bytes, parse_packed_fp, parse_hex_byte", "c-impl/PQCrypto-SIDH/src/poik.h: struct proof"]}
{"id": "C02", "title": "A dumped field element parses back to itself", "statement": "Dump_Fp2 followed by Parse_Fp2 returns the same 2x(SIDH_BYTES/2) bytes, consumes exactly the printed element (leaving the final newline and everything after it), independent of leading whitespace placed before it.", "quantifier": "all byte contents of a packed element, all leading whitespace strings, all following file contents", "why_tests_cant": "2^880 possible contents for the smallest parameter set.", "anchors": ["c-impl/PQCrypto-SIDH/src/poik.c: Dump_Fp2, Parse_Fp2"]}
{"id": "C03", "title": "The textual proof format is unambiguous", "statement": "Two different proofs never produce dump texts one of which is a prefix of the other; in particular Dump is injective on proofs with legal tags.", "quantifier": "all pairs of proofs with legal tags", "why_tests_cant": "Ranges over pairs of arbitrary proofs.", "anchors": ["c-impl/PQCrypto-SIDH/src/poik.c: Dump, Parse"]}
{"id": "C04", "title": "Everything Parse accepts is well formed", "statement": "If Parse returns true then every response tag is -1, 0 or +1 and every field of the responses selected by those tags was assigned from the file; hence the result can be handed to Dump without hitting its unreachable branch, and Parse(Dump(result)) = result (re-dumping normalises the file).", "quantifier": "all file contents", "why_tests_cant": "The input is an arbitrary attacker-controlled file.", "anchors": ["c-impl/PQCrypto-SIDH/src/poik.c: Parse, Dump"]}
{"id": "C05", "title": "Parse looks only at the bytes it consumes", "statement": "If Parse succeeds on a file then it succeeds with the same proof when arbitrary bytes are appended (no end-of-file check): trailing data never changes nor invalidates a proof.", "quantifier": "all file contents and all appended contents", "why_tests_cant": "Needs all files and all extensions.", "anchors": ["c-impl/PQCrypto-SIDH/src/poik.c: Parse"]}
{"id": "C06", "title": "A truncated proof file is rejected", "statement": "If the prover crashes (or the disk fills) at any point while writing the dump, so that only a strict prefix of the text reaches the file, Parse rejects the file, except when the only missing byte is the very last newline.", "quantifier": "all proofs with legal tags, every crash point (every strict prefix)", "why_tests_cant": "There are as many crash points as bytes in the file, for every possible proof.", "anchors": ["c-impl/PQCrypto-SIDH/src/poik.c: Dump, Parse", "c-impl/prove.c: main"]}
{"id": "C07", "title": "Dump reports every write error but those of the tag lines (finding)", "statement": "Dump returns true if and only if every write other than those of the tag lines succeeds, and then the stream holds the proof text up to what was lost of tag lines; with no refused write the text is complete. FINDING: the fprintf that writes the tag line is not checked, so for every proof there is a pattern of refused writes with which Dump returns true although the text written is not the text of the proof.", "quantifier": "all proofs, all patterns of refused writes", "why_tests_cant": "Requires quantifying over which of the thousands of individual writes fails.", "anchors": ["c-impl/PQCrypto-SIDH/src/poik.c: Dump (line 1552), Dump_Bytes, Dump_Fp2"]}
{"id": "C08", "title": "Challenges are trits", "statement": "Every challenge derived from a commitment consists of exactly POIK_REPS values, each -1, 0 or +1; no write happens outside the challenge array.", "quantifier": "all commitments / all XOF outputs on which sampling finishes, all four parameter sets", "why_tests_cant": "The hash output is arbitrary; a test sees a few digests.", "anchors": ["c-impl/PQCrypto-SIDH/src/poik.c: sample_ternary, Challenge"]}
{"id": "C09", "title": "Challenge sampling does not depend on block boundaries", "statement": "The challenge equals the first POIK_REPS trits of a byte-at-a-time rejection sampler (bytes >= 243 dropped, each other byte gives its five balanced base-3 digits, least significant first) run on the concatenated SHAKE256 output stream, although the code restarts the sampler on each 136-byte block; surplus digits at the very end are discarded, never carried over wrongly at a block boundary.", "quantifier": "all XOF output streams, all target lengths", "why_tests_cant": "A boundary bug only shows when a block ends inside a byte's digits for particular digests.", "anchors": ["c-impl/PQCrypto-SIDH/src/poik.c: sample_ternary, Challenge", "sage-impl/verify.sage: trits"]}
{"id": "C10", "title": "Challenge trits are unbiased", "statement": "Each five-trit group is produced by exactly one accepted byte value: the map from the 243 accepted byte values to {-1,0,1}^5 is a bijection, so uniform bytes give uniform independent trits; every challenge vector is reachable.", "quantifier": "all accepted byte values and all trit vectors of any length", "why_tests_cant": "Statistical tests cannot exclude small bias.", "anchors": ["c-impl/PQCrypto-SIDH/src/poik.c: sample_ternary"]}
{"id": "C11", "title": "Challenge sampling finishes exactly when the stream has enough good bytes", "statement": "Sampling n trits from a stream terminates after reading a prefix of blocks iff the stream contains at least ceil(n/5) bytes below 243, and it reads no block beyond the one containing the last byte needed.", "quantifier": "all streams, all n", "why_tests_cant": "Termination is a statement about infinite behaviours.", "anchors": ["c-impl/PQCrypto-SIDH/src/poik.c: sample_ternary, Challenge"]}
{"id": "C12", "title": "Hash inputs are injective and domain separated", "statement": "The byte string hashed for a commitment determines the hiding string and the encoded j-invariant; the byte string hashed for the challenge determines both end-curve j-invariants and all commitment pairs in order; no commitment input ever equals a challenge input.", "quantifier": "all hiding strings, encoded j-invariants, commitment lists; all parameter sets", "why_tests_cant": "Collision-freeness of an encoding ranges over all pairs of inputs.", "anchors": ["c-impl/PQCrypto-SIDH/src/poik.c: hash_hiding, Challenge, RO_CHALLENGE, RO_COMMIT"]}
{"id": "C13", "title": "SHAKE256 conforms to FIPS 202", "statement": "shake256(in) of any length produces the SHAKE256 output defined by the sponge construction with the Keccak-f[1600] permutation (theta, rho, pi, chi, iota), rate 136, domain suffix 1111 and pad10*1; the unrolled, lane-renamed permutation in the code equals 24 rounds of the specification on every state.", "quantifier": "all messages, all output lengths, all 1600-bit states", "why_tests_cant": "Known-answer tests cover finitely many messages; message/rate boundary cases are easily missed.", "anchors": ["c-impl/PQCrypto-SIDH/src/sha3/fips202.c: KeccakF1600_StatePermute, keccak_absorb, keccak_squeezeblocks, shake256"]}
{"id": "C14", "title": "SHAKE256 output is a prefix-consistent stream", "statement": "Asking for n bytes and for m >= n bytes of the same input gives outputs where the first is a prefix of the second, and the incremental interface (shake256_absorb then squeezeblocks one block at a time) yields the same stream, so a verifier that squeezes in different chunk sizes sees the same challenge.", "quantifier": "all messages, all pairs of lengths, all block splits", "why_tests_cant": "All lengths and splits.", "anchors": ["c-impl/PQCrypto-SIDH/src/sha3/fips202.c: shake256, shake256_absorb, shake256_squeezeblocks"]}
{"id": "C15", "title": "Verify accepts exactly the valid transcripts", "statement": "Verify returns true iff both end curves pass the curve check, every one of the POIK_REPS responses unpacks successfully, and the challenge re-derived from the end-curve j-invariants and the reconstructed commitments equals the list of response tags.", "quantifier": "all proof structures (including ones never produced by Prove), all outcomes of the lower-level checks", "why_tests_cant": "The accept condition is a conjunction over 219-438 attacker-chosen responses.", "anchors": ["c-impl/PQCrypto-SIDH/src/poik.c: Verify, Unpack_Response, Challenge"]}
{"id": "C16", "title": "Verify's verdict does not depend on thread scheduling", "statement": "For every number of worker threads >= 1 and every interleaving of their atomic steps, the multithreaded verification returns the same verdict as processing the responses one after the other, provided each response's own verdict is fixed; no run reports success when some response was rejected or skipped.", "quantifier": "all thread counts >= 1, all interleavings, all proofs", "why_tests_cant": "Interleavings are astronomically many; the early-stop store to the shared index can race with fetch-and-add.", "anchors": ["c-impl/PQCrypto-SIDH/src/poik.c: run_threads, Worker_Unpack_Response, Verify"]}
{"id": "C17", "title": "Prove fills every repetition exactly once under every schedule", "statement": "Whatever the number of worker threads >= 1 and their interleaving, when the workers have been joined each of the POIK_REPS instances (and later responses) has been computed exactly once, by one thread, at its own index; no index >= POIK_REPS is ever touched.", "quantifier": "all thread counts >= 1, all interleavings", "why_tests_cant": "Races on the shared work index only show under rare schedules.", "anchors": ["c-impl/PQCrypto-SIDH/src/poik.c: run_threads, Worker_Instance, Worker_Pack_Response, Prove"]}
{"id": "C18", "title": "Worker threads always finish", "statement": "Every fair execution of the worker pool stops: each worker returns after at most POIK_REPS+1 fetches of its own, and the shared index stays below POIK_REPS + threads + 1 so it never wraps round.", "quantifier": "all thread counts, all interleavings", "why_tests_cant": "Liveness over all schedules.", "anchors": ["c-impl/PQCrypto-SIDH/src/poik.c: run_threads, Worker_*"]}
{"id": "C19", "title": "Three answers to one commitment reveal the walk or a hash collision", "statement": "If, for one pair of commitments (h2,h3), a left, a bottom and a right response are all accepted by Unpack_Response with respect to the same end curves, then either two different inputs of hash_hiding with equal output can be read off from them, or the chains compose: a 3-power chain from E0 and a 2-power chain starting at a curve with the same j-invariant as its end, and a 3-power chain from E1 ending at a curve with the same j-invariant as the end of the 2-power chain (special soundness).", "quantifier": "all triples of responses, all hash functions in the role of SHAKE256", "why_tests_cant": "Quantifies over all cheating provers.", "anchors": ["c-impl/PQCrypto-SIDH/src/poik.c: Unpack_Response, hash_hiding, Unpack_Chain_A, Unpack_Chain_B"]}
{"id": "C20", "title": "Changing any bound datum invalidates the challenge input", "statement": "The Fiat-Shamir input is an injective function of (j(E0), j(E1), all (h2,h3)): two accepted proofs with the same challenge input have the same end j-invariants and the same commitments; altering any commitment or end curve class changes what is hashed.", "quantifier": "all pairs of proofs", "why_tests_cant": "All pairs.", "anchors": ["c-impl/PQCrypto-SIDH/src/poik.c: Verify, Challenge"]}
{"id": "C21", "title": "The verdict depends on field elements only modulo p", "statement": "Verify reads E0, E1, E2 and chain points only through their residues modulo p: replacing an encoded coefficient by another encoding of the same residue (adding p while it still fits) leaves the verdict unchanged - proofs are malleable at byte level, and callers must not identify proofs by their bytes.", "quantifier": "all proofs and all re-encodings", "why_tests_cant": "Tests use canonical encodings only.", "anchors": ["c-impl/PQCrypto-SIDH/src/poik.c: unpack_curve, unpack_point, Verify", "c-impl/PQCrypto-SIDH/src/fpx.c: fp2_decode, to_fp2mont"]}
{"id": "C22", "title": "Unusual in-memory tags are truncated (finding)", "statement": "Verify narrows the tag to 8 bits before dispatching; an in-memory proof with tag 256+t (t in -1,0,1) is treated exactly as tag t, whereas Dump and Parse treat it as illegal. Proofs that came out of Parse are never affected.", "quantifier": "all tag values of the enum's underlying int", "why_tests_cant": "Tests construct only the three named tags.", "anchors": ["c-impl/PQCrypto-SIDH/src/poik.c: Unpack_Response (line 1205), Verify, Parse"]}
{"id": "C23", "title": "A response discloses only what its challenge asks for", "statement": "The left response is a function of the left chain, r2 and h3 only; the bottom response of the bottom chain, E2, r2, r3 and fresh scalars only; the right response of the right chain, h2 and r3 only: two instances that agree on those parts yield identical responses however they differ elsewhere (in particular the left response does not depend on the secret walk, and the bottom response not on the left or right chain).", "quantifier": "all pairs of instances, all challenges, all randomness", "why_tests_cant": "Non-interference is a two-run property over all secrets.", "anchors": ["c-impl/PQCrypto-SIDH/src/poik.c: Pack_Response, Pack_Chain_A, Pack_Chain_B"]}
{"id": "C24", "title": "Honest responses open their own commitments", "statement": "If the chains of an instance are valid (each point re-packed relative to the canonical model unpacks to an isogeny ending at the right j-invariant), then for each of the three challenges unpacking the packed response succeeds and reconstructs exactly the committed pair (h2,h3); consequently an honestly produced proof has its re-derived challenge equal to its tags and is accepted by Verify.", "quantifier": "all instances with valid chains, all challenges, all hiding strings, all hash outputs", "why_tests_cant": "Completeness ranges over all random choices of the prover.", "anchors": ["c-impl/PQCrypto-SIDH/src/poik.c: Prove, Verify, Pack_Response, Unpack_Response, hash_hiding, Challenge"]}
{"id": "C25", "title": "Progress rendering stays inside its buffer", "statement": "For every progress value 0..POIK_REPS (all the values passed by the callers, including the racing reads by the main thread) the rendered bar is exactly 64 characters followed by NUL, with a single '>' and no write outside the 65-byte buffer.", "quantifier": "all progress values the callers can pass, all thread interleavings", "why_tests_cant": "The off-by-one value POIK_REPS is only reached in one build configuration.", "anchors": ["c-impl/PQCrypto-SIDH/src/poik.c: render_progress, run_threads"]}
{"id": "C26", "title": "The order bound test is sound", "statement": "If the order test accepts torsion exponents (a,b) then 2^a*3^b > 4p, for each of the four primes, although it is computed with a rational approximation of log2(3) in machine integers; no arithmetic wraps.", "quantifier": "all exponents a,b that can occur, all four parameter sets", "why_tests_cant": "Rounding direction errors appear only at extreme exponents.", "anchors": ["c-impl/PQCrypto-SIDH/src/poik.c: proves_order"]}
{"id": "C27", "title": "A curve that passes the check is supersingular of the right order", "statement": "If the curve check accepts the curve with coefficient A for some random choices, then A^2 != 4 and the group E_A(GF(p^2)) has order exactly (p+1)^2, whatever random points were drawn; conversely every such curve is accepted for some random choices. (Hasse's bound, which the test relies on, is proved, not assumed.)", "quantifier": "all coefficients A, all random tapes leading to acceptance, all four primes", "why_tests_cant": "Soundness must hold for every maliciously chosen curve.", "anchors": ["c-impl/PQCrypto-SIDH/src/poik.c: Check_Curve, proves_order, random_point"]}
{"id": "C28", "title": "A good curve is never rejected", "statement": "If every point of E_A(GF(p^2)) is killed by p+1 (e.g. any supersingular curve with (p+1)^2 points of the right group structure), the curve check never answers false, for any random choices: it answers true or gives up after its iteration limit.", "quantifier": "all such curves, all random tapes", "why_tests_cant": "Failure probability over all tapes is not testable.", "anchors": ["c-impl/PQCrypto-SIDH/src/poik.c: Check_Curve"]}
{"id": "C29", "title": "The curve check does not depend on uninitialised memory", "statement": "Check_Curve passes an uninitialised point to the comparison when a torsion component is trivial; the verdict is the same for every possible content of that memory.", "quantifier": "all initial memory contents, all tapes, all curves", "why_tests_cant": "Memory contents vary with compiler and history.", "anchors": ["c-impl/PQCrypto-SIDH/src/poik.c: Check_Curve (cur2.T, cur3.T)"]}
{"id": "C30", "title": "x-only doubling is doubling on the curve", "statement": "For every point of the Montgomery curve y^2=x^3+Ax^2+x over any field of characteristic not 2, xDBL applied to any projective representative of its x-coordinate yields a representative of the x-coordinate of 2P (point at infinity represented with Z=0), and never the degenerate pair (0:0).", "quantifier": "all fields (char != 2), all nonsingular A, all points including 2-torsion and infinity, all representatives", "why_tests_cant": "Exceptional points have negligible probability in random tests.", "anchors": ["c-impl/PQCrypto-SIDH/src/ec_isogeny.c: xDBL, xDBLe"]}
{"id": "C31", "title": "x-only tripling is tripling on the curve", "statement": "Same as for doubling, with xTPL and 3P.", "quantifier": "all fields (char != 2), nonsingular A, all points, all representatives", "why_tests_cant": "Exceptional points (3-torsion, 2-torsion, infinity).", "anchors": ["c-impl/PQCrypto-SIDH/src/ec_isogeny.c: xTPL, xTPLe"]}
{"id": "C32", "title": "Differential addition and the Montgomery ladder compute scalar multiples", "statement": "xDBLADD computes x(2P) and x(P+Q) from x(P), x(Q), x(P-Q) whenever x(P-Q) is neither 0 nor infinity; consequently Ladder(P,m) is x([m]P) for every scalar and every bit length, for every P whose x-coordinate is nonzero and finite.", "quantifier": "all scalars, all bit lengths, all points with x nonzero finite", "why_tests_cant": "All scalars.", "anchors": ["c-impl/PQCrypto-SIDH/src/poik.c: Ladder", "c-impl/PQCrypto-SIDH/src/ec_isogeny.c: xDBLADD, swap_points"]}
{"id": "C33", "title": "The six models are exactly the Montgomery models of the curve", "statement": "all_models returns six coefficients; each has the same j-invariant as the input and the attached map (x-r)/u2 carries points to points; conversely every Montgomery coefficient with that j-invariant is among the six.", "quantifier": "all nonsingular coefficients whose 2- and 4-torsion is rational, all points", "why_tests_cant": "Algebraic identity over a 868-bit field.", "anchors": ["c-impl/PQCrypto-SIDH/src/poik.c: all_models, solve_quadratic, eval_iso, change_model"]}
{"id": "C34", "title": "The canonical model is canonical", "statement": "pack_curve maps isomorphic curves (equal j-invariant) to the identical byte string: the lexicographically least of the six coefficients; and unpacking it gives a curve of the same j-invariant.", "quantifier": "all pairs of curves with equal j-invariant", "why_tests_cant": "All pairs of isomorphic curves, incl. j=0 and j=1728 where models coincide.", "anchors": ["c-impl/PQCrypto-SIDH/src/poik.c: canonical_model, pack_curve, fp_lt", "c-impl/PQCrypto-SIDH/src/fpx.c: from_mont, ct_cmov"]}
{"id": "C35", "title": "The j-invariant computation is the j-invariant", "statement": "j_inv(A,C) equals 256(a^2-3)^3/(a^2-4) with a=A/C, i.e. the j-invariant of the Weierstrass curve y^2=x^3+ax^2+x; scaling (A:C) does not change it, and it is equal for all six models.", "quantifier": "all projective coefficients with C != 0, A^2 != 4C^2", "why_tests_cant": "All field elements.", "anchors": ["c-impl/PQCrypto-SIDH/src/ec_isogeny.c: j_inv", "c-impl/PQCrypto-SIDH/src/poik.c: enc_j"]}
{"id": "C36", "title": "The 3-isogeny formulas are correct", "statement": "For a kernel point of order 3, get_3_isog yields a nonsingular Montgomery coefficient and eval_3_isog maps points of the curve to points of the codomain, sends exactly the kernel to infinity, commutes with doubling, tripling and differential addition, and never yields (0:0).", "quantifier": "all fields (char != 2,3), all order-3 points, all evaluation points and representatives", "why_tests_cant": "Exceptional inputs.", "anchors": ["c-impl/PQCrypto-SIDH/src/ec_isogeny.c: get_3_isog, eval_3_isog"]}
{"id": "C37", "title": "The 2- and 4-isogeny formulas are correct", "statement": "For a kernel point of order 4 not above (0,0) (resp. of order 2 other than (0,0)), get_4_isog/eval_4_isog (get_2_isog/eval_2_isog) yield a nonsingular codomain, send exactly the kernel to infinity, map points to points, commute with doubling and tripling, never yield (0:0); the point (0,0) of the codomain generates the dual direction (backtracking).", "quantifier": "all fields (char != 2), all such kernel points, all evaluation points", "why_tests_cant": "Exceptional inputs.", "anchors": ["c-impl/PQCrypto-SIDH/src/ec_isogeny.c: get_4_isog, eval_4_isog, get_2_isog, eval_2_isog", "c-impl/PQCrypto-SIDH/src/poik.c: Isogeny_A"]}
{"id": "C38", "title": "Wrong-order kernels are rejected", "statement": "The 2-power isogeny routine succeeds iff the kernel point has exact order 2^e2, the 3-power routine iff it has exact order 3^e3; any other x-coordinate (including ones on the quadratic twist, of smaller order, or infinity) makes Verify reject.", "quantifier": "all curves, all x-coordinates", "why_tests_cant": "All 2^868 x-coordinates.", "anchors": ["c-impl/PQCrypto-SIDH/src/poik.c: Isogeny_A, Isogeny_B (order checks)"]}
{"id": "C39", "title": "Strategy traversal is memory safe and computes the isogeny chain", "statement": "The precomputed strategies drive the isogeny loops so that the point stack never under- or overflows, the strategy table is never read out of bounds, each 4- (3-)isogeny is taken at the right multiple of the current kernel point, and the result equals the textbook chain R -> [l^(n-1-i)]R; this holds for each table shipped with the code and for every kernel point.", "quantifier": "all kernel points, all four parameter sets, both primes 2 and 3", "why_tests_cant": "A table error would only show for some rows; the equality with the naive chain is over all points.", "anchors": ["c-impl/PQCrypto-SIDH/src/poik.c: Isogeny_A, Isogeny_B", "c-impl/PQCrypto-SIDH/src/P434/P434.c: strat_Alice, strat_Bob", "c-impl/PQCrypto-SIDH/src/P503/P503.c", "c-impl/PQCrypto-SIDH/src/P610/P610.c", "c-impl/PQCrypto-SIDH/src/P751/P751.c"]}
{"id": "C40", "title": "Chains accepted by the verifier do not backtrack", "statement": "If the verifier accepts a chain of isogenies then the composed isogeny has cyclic kernel: pushing the single backtracking point of the first step through all later steps detects backtracking at every later step.", "quantifier": "all chains of any number of steps, all kernels", "why_tests_cant": "Ranges over all malicious chains.", "anchors": ["c-impl/PQCrypto-SIDH/src/poik.c: Unpack_Chain_A, Unpack_Chain_B, Isogeny_A, Isogeny_B"]}
{"id": "C41", "title": "Random scalars hide which generator was used", "statement": "Re-randomising a kernel point by a random odd scalar below 2^e2 gives a generator of the same subgroup, every generator arising from equally many scalars, so a bottom response reveals the kernel subgroup but not the prover's generator.", "quantifier": "all generators, all e2", "why_tests_cant": "Distribution statement over all scalars.", "anchors": ["c-impl/PQCrypto-SIDH/src/poik.c: Pack_Chain_A", "c-impl/PQCrypto-SIDH/src/sidh.c: random_mod_order_A"]}
{"id": "C42", "title": "Modular addition, subtraction, negation and halving are exact", "statement": "For inputs in [0,2p-1], fpadd, fpsub, fpdiv2 return values in [0,2p-1] congruent to a+b, a-b, a/2 mod p; fpneg returns a value congruent to -a (equal to 2p when a=0); fpcorrection returns the canonical residue in [0,p-1].", "quantifier": "all field elements in range, all four primes (portable C backend)", "why_tests_cant": "2^868 input pairs; carry-chain bugs hit with probability 2^-64.", "anchors": ["c-impl/PQCrypto-SIDH/src/P434/generic/fp_generic.c: fpadd434, fpsub434, fpneg434, fpdiv2_434, fpcorrection434, mp_sub434_p2, mp_sub434_p4 (and 503/610/751)", "c-impl/PQCrypto-SIDH/src/config.h: ADDC, SUBC"]}
{"id": "C43", "title": "Schoolbook multiplication is exact", "statement": "digit_x_digit returns the exact 128-bit product and mp_mul the exact 2n-word product, with no accumulator overflow.", "quantifier": "all word values, all operand values", "why_tests_cant": "Carry bugs of probability 2^-64 and below.", "anchors": ["c-impl/PQCrypto-SIDH/src/P434/generic/fp_generic.c: digit_x_digit, mp_mul", "c-impl/PQCrypto-SIDH/src/config.h: MUL, ADDC"]}
{"id": "C44", "title": "Montgomery reduction is exact", "statement": "For ma < R*p, rdc_mont returns a value in [0,2p-1] congruent to ma/R mod p, exploiting the zero words of p+1, with no accumulator overflow.", "quantifier": "all double-length inputs below R*p, all four primes", "why_tests_cant": "Rare carries.", "anchors": ["c-impl/PQCrypto-SIDH/src/P434/generic/fp_generic.c: rdc_mont (and 503/610/751)"]}
{"id": "C45", "title": "Quadratic-extension arithmetic is exact with lazy reduction", "statement": "fp2mul_mont, fp2sqr_mont, fp2add, fp2sub, fp2neg, fp2div2, fp2inv_mont return the product, square, sum, ... in GF(p^2) for all inputs within their documented (unreduced) ranges, and outputs are back in [0,2p-1].", "quantifier": "all inputs in range, all four primes", "why_tests_cant": "Lazy reduction overflows occur only for extreme operands.", "anchors": ["c-impl/PQCrypto-SIDH/src/fpx.c: fp2mul_mont, fp2sqr_mont, fp2inv_mont, mp_addfast, mp_subaddfast, mp_dblsubfast"]}
{"id": "C46", "title": "Inversion and square-root exponents are right", "statement": "The hand-written addition chains compute a^((p-3)/4) for each of the four primes, hence fpinv_mont returns the inverse of every nonzero element.", "quantifier": "all field elements, all four primes", "why_tests_cant": "A wrong chain step may coincide on special elements; the exponent identity is exact.", "anchors": ["c-impl/PQCrypto-SIDH/src/fpx.c: fpinv_chain_mont, fpinv_mont"]}
{"id": "C47", "title": "The square root used for hashing to curves is right", "statement": "fp2sqrt(x, known_square=false) returns true iff x is a square in GF(p^2), and then y^2 = x; with known_square=true and x a square, y^2=x.", "quantifier": "all x in GF(p^2), all four primes", "why_tests_cant": "All field elements incl. subfield elements and zero.", "anchors": ["c-impl/PQCrypto-SIDH/src/poik.c: fp2sqrt"]}
{"id": "C48", "title": "Field equality is equality of residues", "statement": "fp_equal(a,b) returns 255 if a=b mod p and 0 otherwise, for a,b in [0,2p-1]; a value 2p (which fpneg produces from 0) compares wrongly against 0 (finding), but no answer of fp_equal on an array out of range (2p or more on the left, or uninitialised memory) influences how Verify, Prove or Generate end or what they return.", "quantifier": "all pairs of representatives", "why_tests_cant": "The failing representative is a single value.", "anchors": ["c-impl/PQCrypto-SIDH/src/poik.c: fp_equal, fp2_equal", "c-impl/PQCrypto-SIDH/src/fpx.c: ct_compare"]}
{"id": "C49", "title": "Encoding of field elements is canonical and lossless", "statement": "fp2_encode depends only on the residues and writes them in [0,p-1] little endian; fp2_decode(fp2_encode(x)) represents the same element; fp2_encode(fp2_decode(b)) = b iff both halves of b are below p.", "quantifier": "all representatives, all byte strings", "why_tests_cant": "All elements.", "anchors": ["c-impl/PQCrypto-SIDH/src/fpx.c: fp2_encode, fp2_decode, to_fp2mont, from_fp2mont"]}
{"id": "C50", "title": "The constants are what they claim to be", "statement": "For each parameter set the tabulated p, p+1, 2p, 4p, R^2 mod p, R mod p and group orders agree with p = 2^e2*3^e3 - 1, p is prime, p = 3 mod 4.", "quantifier": "all four parameter sets (finite tables, but primality is a universally quantified fact)", "why_tests_cant": "Primality of a 751-bit number is not established by running the code.", "anchors": ["c-impl/PQCrypto-SIDH/src/P434/P434.c", "c-impl/PQCrypto-SIDH/src/P503/P503.c", "c-impl/PQCrypto-SIDH/src/P610/P610.c", "c-impl/PQCrypto-SIDH/src/P751/P751.c"]}
{"id": "C51", "title": "Random field elements are valid but do not cover the field (finding)", "statement": "The sampler fprand always returns a representative below p, but because its mask keeps the wrong number of top bits there are field elements it can never return.", "quantifier": "all random tapes, all four primes", "why_tests_cant": "Coverage of the field cannot be observed by sampling.", "anchors": ["c-impl/PQCrypto-SIDH/src/poik.c: fprand"]}
{"id": "C52", "title": "randombytes fills the whole buffer or does not return", "statement": "For every sequence of short reads and read errors, when randombytes returns, all requested bytes were written, in order, from the entropy source, and nothing beyond them; a source that keeps returning 0 bytes makes it loop forever.", "quantifier": "all request sizes below 2^31, all sequences of read() results", "why_tests_cant": "Short reads and errors do not occur in tests.", "anchors": ["c-impl/PQCrypto-SIDH/src/random/random.c: randombytes"]}
{"id": "C53", "title": "Constant-time comparison and conditional move mean what they say", "statement": "ct_compare returns 0 if the buffers agree and 0xFF (as a byte) otherwise; ct_cmov with selector 0xFF copies, with selector 0 leaves the destination.", "quantifier": "all buffers of all lengths", "why_tests_cant": "All buffers.", "anchors": ["c-impl/PQCrypto-SIDH/src/fpx.c: ct_compare, ct_cmov"]}
{"id": "C54", "title": "The command-line verifier prints curves only for accepted proofs", "statement": "The verify tool exits 0 and prints (E0,E1) of the parsed proof only if parsing succeeded and Verify accepted; it prints nothing on standard output for malformed or invalid proofs, and its exit status distinguishes malformed (255) from invalid (2) from write failure (3).", "quantifier": "all standard inputs, all verification outcomes, all write failures", "why_tests_cant": "All inputs.", "anchors": ["c-impl/verify.c: main"]}
{"id": "C55", "title": "The command-line prover's pipeline is consistent", "statement": "When the prove tool exits 0 its output parses to the very proof produced by Prove for a secret accepted by Generate; chaining tools by feeding the last printed curve of verify to prove keeps the curve unchanged.", "quantifier": "all inputs, all write patterns without refused writes", "why_tests_cant": "All inputs.", "anchors": ["c-impl/prove.c: main", "c-impl/verify.c: main"]}
{"id": "C56", "title": "The independent Sage verifier agrees only for 32-byte hashes (finding)", "statement": "The Sage verifier hard-codes 32-byte hash commitments: its challenge input coincides with the C code's for the 434 and 503 parameter sets and always differs (already in length) for 610 and 751.", "quantifier": "all proofs", "why_tests_cant": "A statement about two implementations on all inputs.", "anchors": ["sage-impl/verify.sage: hash_hiding", "c-impl/PQCrypto-SIDH/src/poik.h: HASH_BYTES"]}
{"id": "C57", "title": "KEM decapsulation never reveals rejection", "statement": "crypto_kem_dec always returns success and a shared secret; when the re-encrypted ciphertext header differs, the secret is derived from the stored random s instead of the decrypted message, otherwise from the message.", "quantifier": "all ciphertexts and keys", "why_tests_cant": "All malformed ciphertexts.", "anchors": ["c-impl/PQCrypto-SIDH/src/sike.c: crypto_kem_dec"]}
{"id": "C58", "title": "KEM correctness reduces to key-exchange agreement", "statement": "If both parties' shared j-invariants agree then decapsulating an honestly encapsulated ciphertext returns the same shared secret.", "quantifier": "all keys, all messages", "why_tests_cant": "All keys.", "anchors": ["c-impl/PQCrypto-SIDH/src/sike.c: crypto_kem_enc, crypto_kem_dec"]}
{"id": "C59", "title": "Singular coefficients are never accepted", "statement": "Check_Curve does not test A^2 != 4. It nevertheless never accepts A = 2 or A = -2, for any random choices.", "quantifier": "both singular coefficients, all random tapes, all memory contents, all four primes", "why_tests_cant": "Acceptance of a singular curve would need rare random choices.", "anchors": ["c-impl/PQCrypto-SIDH/src/poik.c: Check_Curve"]}
{"id": "C60", "title": "Hasse's bound and the Frobenius endomorphism on accepted curves", "statement": "For every nonsingular A the number of points of E_A over GF(p^2) lies between (p-1)^2 and (p+1)^2; on a curve with (p+1)^2 points the p^2-power Frobenius acts as multiplication by -p on all points over the algebraic closure. These are the facts that make the order test in proves_order conclusive and every kernel rational.", "quantifier": "all coefficients, all points over the algebraic closure, all four primes", "why_tests_cant": "A mathematical fact about about 2^868 curves.", "anchors": ["c-impl/PQCrypto-SIDH/src/poik.c: proves_order, Check_Curve"]}
{"id": "C61", "title": "The default starting curve is good", "statement": "The curve y^2 = x^3 + x, from which prove starts with --initial, has (p+1)^2 points over GF(p^2) and is never rejected by the curve check.", "quantifier": "all random tapes, all four primes", "why_tests_cant": "Counting the points of a curve over a field of cryptographic size.", "anchors": ["c-impl/prove.c: main (--initial)", "c-impl/PQCrypto-SIDH/src/poik.c: Check_Curve"]}
{"id": "C62", "title": "The verdict of Verify is deterministic", "statement": "Verify draws random points and reads uninitialised stack memory, but two runs on the same proof never return different verdicts, whatever the random values and the memory contents.", "quantifier": "all proofs, all pairs of random tapes and memory contents, all four primes", "why_tests_cant": "A disagreement would need rare random choices; tests see a handful of runs.", "anchors": ["c-impl/PQCrypto-SIDH/src/poik.c: Verify, Unpack_Response, Unpack_Chain_A, Unpack_Chain_B, Check_Curve, Isogeny_B"]}
{"id": "C63", "title": "Generate walks a cyclic isogeny and the grid of Instance closes", "statement": "A secret returned by Generate is a cyclic isogeny of degree 2^(e2*WIDTH) from the given curve a0 (of the right order) to its last curve a1. For every instance computed from it, the left chain is a cyclic 3-power isogeny a0 -> a2 of full degree, the right chain one a1 -> a3, and the bottom chain is a cyclic 2-power isogeny of full degree from a2 to the same a3; h2 and h3 commit to the classes of a2 and a3.", "quantifier": "all start curves, all random choices, all secrets returned by Generate, all four primes", "why_tests_cant": "Commutativity of the isogeny square is a theorem about all kernels; tests see samples.", "anchors": ["c-impl/PQCrypto-SIDH/src/poik.c: Generate, Instance, Random_Isogeny_Chain_A, Random_Isogeny_Chain_B, Isogeny_A, Isogeny_B"]}
{"id": "C64", "title": "Hiding strings are fresh", "statement": "Every instance takes the next two hiding strings drawn from the random source, r2 then r3; over all repetitions Prove uses the strings in the order drawn, each for exactly one commitment, and no other part of the prover consumes them.", "quantifier": "all secrets, all random tapes, any number of repetitions, all four primes", "why_tests_cant": "Reuse of randomness is invisible in input/output tests.", "anchors": ["c-impl/PQCrypto-SIDH/src/poik.c: Instance, Prove, Random_Isogeny_Chain_B"]}
{"id": "C65", "title": "Buffered output lost at exit goes unnoticed (finding)", "statement": "Neither tool flushes or closes standard output before returning from main: whenever a run ends with status 0, a run in the same circumstances in which the buffered output cannot be written at exit also ends with status 0, with nothing on standard output.", "quantifier": "all inputs and random choices, both tools, all four primes", "why_tests_cant": "A statement about all failure patterns of the output file.", "anchors": ["c-impl/prove.c: main", "c-impl/verify.c: main"]}
{"id": "C66", "title": "The machine arithmetic computes the protocol", "statement": "Verify, Prove and Generate, computing with 64-bit words in Montgomery form (portable backend) from random bytes and uninitialised memory, end exactly as the same functions over GF(p^2) do on the elements those bytes stand for: same result, same abort, same undefined behaviour. Hence on words: no undefined behaviour on any proof in memory, a verdict that is true exactly for valid proofs, soundness, and completeness through the proof file.", "quantifier": "all proofs, secrets and start curves in memory, all random bytes, all contents of uninitialised memory, all four primes", "why_tests_cant": "Ranges of intermediate values (up to 8p without reduction) depend on rare carries in long computations.", "anchors": ["c-impl/PQCrypto-SIDH/src/poik.c: Verify, Prove, Generate and everything below", "c-impl/PQCrypto-SIDH/src/ec_isogeny.c", "c-impl/PQCrypto-SIDH/src/fpx.c"]}
{"id": "C67", "title": "The threaded prover and verifier do what the sequential ones do", "statement": "Prove and Verify with their repetitions spread over a pool of worker threads have exactly the outcomes of the sequential programs: whatever the number of threads and the interleaving, a proof the pool can produce is one the sequential prover can produce from some random tape and conversely; the pool never reaches undefined behaviour on a well-formed secret; honest proofs of the pool are accepted; the pool verifies a proof with verdict true exactly if the proof is valid.", "quantifier": "all secrets, proofs, numbers of threads, interleavings of atomic steps, random values per repetition, all four primes", "why_tests_cant": "Interleavings cannot be enumerated by running the program.", "anchors": ["c-impl/PQCrypto-SIDH/src/poik.c: Prove, Verify, compute_worker, verify_worker"]}
{"id": "C68", "title": "Verify and Generate can always return, and reject exactly what is not valid", "statement": "Check_Curve can return on every coefficient, of whatever order and also singular. Hence Verify has a run that returns on every proof in memory, except where the XOF never puts out enough challenge values for the input computed from the proof; it can return false exactly on the proofs that are not valid, sequentially and with any number of worker threads. Generate can return on every coefficient, and returns a secret exactly for the curves with (p+1)^2 points. The verify tool can end on every input that Parse reads without undefined behaviour.", "quantifier": "all proofs, coefficients and inputs, all hash functions, any number of threads, all four primes; existence of random values", "why_tests_cant": "That a loop waiting for suitable random points can always be left is a statement about the group of every curve, including invalid ones (needs Hasse's bound).", "anchors": ["c-impl/PQCrypto-SIDH/src/poik.c: Check_Curve, Verify, Generate", "c-impl/verify.c: main"]}
{"id": "C69", "title": "Assembly additions and subtractions agree with the portable code", "statement": "Every call of mp_add*_asm, fpadd*_asm, fpsub*_asm and mp_sub*_p2_asm that meets the calling convention, with its arguments at any aligned addresses, also in place, returns to its caller with callee-saved registers and stack pointer restored, reads only its arguments, the constant tables and its stack, writes only its output and its stack, and leaves in its output word for word what the portable functions compute, for all inputs. The ADDC and SUBC macros with 128-bit integers are the portable ones for every carry bit.", "quantifier": "all machine states meeting the convention (registers, flags, memory, addresses), all inputs, all four primes", "why_tests_cant": "Carry chains fail on rare operands; register and aliasing errors show only for some layouts.", "anchors": ["c-impl/PQCrypto-SIDH/src/P434/AMD64/fp_x64_asm.S (and P503, P610, P751)", "c-impl/PQCrypto-SIDH/src/P434/AMD64/fp_x64.c", "c-impl/PQCrypto-SIDH/src/config.h: ADDC, SUBC"]}
{"id": "C70", "title": "Assembly products and reductions agree with the portable code", "statement": "Every call of fpmul*_asm, fp2sqr*_c0/c1_asm, fp2mul*_c0/c1_asm (p434, p503, p610) and of mul751_asm, rdc751_asm, mp_sub751_p4_asm, mp_subadd751x2_asm, mp_dblsub751x2_asm that meets the calling convention with inputs in range returns, keeps to the convention as in C69, and leaves the Montgomery product (square, reduction, ...) in its output, below 2p; except for fp2mul*_c0 this is the portable result word for word. fpmul_mont, fp2sqr_mont, fp2mul_mont put together from these calls compute what the portable functions do.", "quantifier": "all machine states meeting the convention, all inputs in range (fpmul: both below 120p and product below 2^(64n)p; squares below 4p; products below 16p and 8p), all four primes", "why_tests_cant": "Two interleaved carry chains (CF and OF) lose a carry only for operands no random test hits.", "anchors": ["c-impl/PQCrypto-SIDH/src/P434/AMD64/fp_x64_asm.S (and P503, P610, P751)", "c-impl/PQCrypto-SIDH/src/fpx.c: fpmul_mont, fp2sqr_mont, fp2mul_mont"]}
{"id": "C71", "title": "Both builds run the same protocol", "statement": "In the portable build and in the default x86-64 build, where the field arithmetic is the assembly, Verify, Prove and Generate end exactly as the same functions over GF(p^2) do on the elements the random bytes stand for. Hence in the x86-64 build: no undefined behaviour on any proof in memory, a verdict that is true exactly for valid proofs, soundness, inverses, square roots, comparison and encoding as in the portable build. From the same inputs and random bytes both builds give the same verdict, proof and secret byte by byte, and a proof made by one build from a secret made by another is accepted by every build.", "quantifier": "all proofs, secrets and start curves in memory, all random bytes, all contents of uninitialised memory, every combination of builds for Generate, Prove and Verify, all four primes", "why_tests_cant": "The builds differ in intermediate representatives (by p in fp2mul) and in the ranges their routines accept; a test runs one build on one machine.", "anchors": ["c-impl/PQCrypto-SIDH/src/poik.c: Verify, Prove, Generate and everything below", "c-impl/PQCrypto-SIDH/src/fpx.c", "c-impl/PQCrypto-SIDH/src/P434/AMD64/fp_x64_asm.S (and P503, P610, P751)"]}
{"id": "C72", "title": "The Sage verifier and the C verifier give the same verdict (434, 503)", "statement": "On a proof file as the prover prints it, followed by anything, both programs read the same proof; and the Sage verifier accepts it exactly if the C verifier can return true, provided that no chain passes through a curve with j-invariant 0 or 1728 and Sage's library computes orders, torsion points, lifts and isogenies correctly.", "quantifier": "all well-formed proofs without such curves, valid or not, all hash functions, all libraries that meet the specification (any choice of torsion basis, y-coordinate and isogeny), 434 and 503", "why_tests_cant": "The two programs use different algorithms for the check against walking back; agreement on rejected files is never exercised by running both on honest proofs.", "anchors": ["sage-impl/verify.sage: whole script", "c-impl/PQCrypto-SIDH/src/poik.c: Verify, Parse"]}
{"id": "C73", "title": "What acceptance by the Sage verifier shows", "statement": "Whatever is on standard input, for all four parameter sets: if the Sage verifier accepts, then both printed curves have (p+1)^2 points, and there are as many pairs of hashes as repetitions, each belonging to an isogeny with cyclic kernel of the right order between curves of the right order (from E0, from E1 or between two committed curves, depending on the tag), such that the tags are the challenges derived from the two j-invariants and the hashes.", "quantifier": "all inputs, all hash functions, all libraries meeting the specification, all four parameter sets", "why_tests_cant": "Soundness is about all files, in particular malicious ones.", "anchors": ["sage-impl/verify.sage: whole script"]}
{"id": "C74", "title": "The Sage verifier accepts forged proofs", "statement": "read_bytes accepts hashes of any length and challenge hashes their concatenation, so the hashed bytes can be divided into pairs after the challenge is known: for any two curves with (p+1)^2 points there is a string S such that for every nonempty tail, if the challenges derived from the two curves and S ++ tail begin with a nonzero value and end with -1, then some file for these two curves is accepted. No isogeny between the curves is used. (The C parser reads hashes of fixed length; there the division is unique, C12.)", "quantifier": "all pairs of curves, all hash functions with outputs of the right length, all tails and challenges of this shape, all four parameter sets", "why_tests_cant": "It is a statement about files no prover produces; the files are megabytes long and have to be constructed.", "anchors": ["sage-impl/verify.sage: read_bytes, challenge, LeftResponse, RightResponse"]}
{"id": "C75", "title": "Both sides of the key exchange obtain the same secret", "statement": "The generators in the tables are bases of the 2^e2- and 3^e3-torsion of the starting curve. For every pair of private keys the public keys are the images of the other side's generators under an isogeny whose kernel is generated by P + mQ, and both sides compute the same bytes, the encoded j-invariant of the quotient of the starting curve by both kernels. With validation (sike = 1) the same holds unless the two values that publickey_validation compares, which are different, agree in the bits it looks at; exactly then the honest key is rejected. Whatever the keys and public keys are, no access leaves an array.", "quantifier": "all private keys, all byte strings as public keys for the absence of out-of-bounds accesses, all four primes", "why_tests_cant": "The key space cannot be enumerated; an honest key that is wrongly rejected does not occur in any test.", "anchors": ["c-impl/PQCrypto-SIDH/src/sidh.c: EphemeralKeyGeneration_A/B, EphemeralSecretAgreement_A/B, EphemeralSecretAgreement_B_extended", "c-impl/PQCrypto-SIDH/src/ec_isogeny.c: LADDER3PT, inv_3_way, get_A, xTPL_fast"]}
{"id": "C76", "title": "The key encapsulation decapsulates what it encapsulates", "statement": "With the key exchange and the SHAKE256 of the library itself: for all random bytes, key generation and encapsulation succeed and decapsulation returns the shared secret of the encapsulation, unless publickey_validation confuses the two values it compares; then it returns the secret meant for invalid ciphertexts.", "quantifier": "all random bytes of key generation and encapsulation, all contents of buffers before the calls, all four primes", "why_tests_cant": "Correctness for all keys and messages.", "anchors": ["c-impl/PQCrypto-SIDH/src/sike.c: crypto_kem_keypair, crypto_kem_enc, crypto_kem_dec", "c-impl/PQCrypto-SIDH/src/sidh.c: whole file"]}
{"id": "C77", "title": "What the validation of a public key guarantees", "statement": "If EphemeralSecretAgreement_B_extended with sike = 1 returns a secret, then the coefficient computed from the public key is that of a smooth curve, and the first two coordinates are those of a basis of its 3^e3-torsion (for p610 moreover A+2 and A-2 are squares). If the third coordinate is not zero it is that of the difference, and the secret is the j-invariant of the quotient by the subgroup generated by P + mQ. If it is zero, the coefficient is minus the sum of the others and no relation is checked.", "quantifier": "all byte strings as public keys, all private keys, all four primes", "why_tests_cant": "A statement about malicious public keys.", "anchors": ["c-impl/PQCrypto-SIDH/src/sidh.c: publickey_validation, EphemeralSecretAgreement_B_extended"]}
{"id": "C78", "title": "The comparison of the validation does not look at all bits (finding)", "statement": "publickey_validation compares two elements of GF(p^2) with memcmp over 2*NBITS_TO_NBYTES(NBITS_FIELD) bytes, although the elements are stored with leading zero bytes: the top bits of the imaginary parts (from bit 432, 496, 592, 736 on) are not compared. It takes two different elements for equal exactly if their real parts agree and their imaginary parts agree in Montgomery form below that bit, and such elements exist.", "quantifier": "all pairs of elements, all four primes", "why_tests_cant": "The elements differ in a few top bits only; random tests do not hit them.", "anchors": ["c-impl/PQCrypto-SIDH/src/sidh.c: publickey_validation"]}
{"id": "C79", "title": "The curve of an accepted public key is supersingular", "statement": "If EphemeralSecretAgreement_B_extended with sike = 1 returns a secret, then the curve of the public key has (p+1)^2 points over GF(p^2) for 434, 503 and 751, whatever the third coordinate is; for 610 it has (p+1)^2 or (p-1)^2 + 4*3^(2*192) points. On a curve with (p+1)^2 points the first two coordinates belong to points with both coordinates in GF(p^2), a basis of the 3^e3-torsion there, and if the third coordinate is not zero the secret is the j-invariant of a curve with (p+1)^2 points.", "quantifier": "all byte strings as public keys, all private keys, all four primes", "why_tests_cant": "A statement about malicious public keys; the number of points of a curve over a field of this size cannot be counted by a test.", "anchors": ["c-impl/PQCrypto-SIDH/src/sidh.c: publickey_validation, EphemeralSecretAgreement_B_extended"]}
{"id": "C80", "title": "The knowledge error of the proof is (2/3)^reps", "statement": "Take a prover that has fixed the end curves and the commitments of all repetitions and then answers the output of the XOF in any way whatsoever. If the share of the strings of m bytes (the first k blocks of the XOF) for which its proof is accepted exceeds (2/3)^reps, then there are three such strings and a repetition such that its answers there are a left, a bottom and a right response: isogenies of the right degrees with cyclic kernel from E0, between two curves and from E1, with the hashes of the commitments in common; so either two different inputs of the hash function with the same value have been found, or the isogenies compose (up to isomorphism) to a path from E0 to E1.", "quantifier": "all provers (functions from byte strings to proofs), all curves and commitments, all hash functions, all numbers of blocks, all four parameter sets", "why_tests_cant": "It is a statement about all cheating strategies; the share in question is 2^-128 or less.", "anchors": ["c-impl/PQCrypto-SIDH/src/poik.c: Verify, Unpack_Response, Challenge"]}
{"id": "C81", "title": "The key exchange on words computes the key exchange over the field", "statement": "On buffers of at least the documented sizes EphemeralKeyGeneration_A/B and EphemeralSecretAgreement_A/B(_extended), run on 64-bit words in Montgomery form with the portable routines or with the x86-64 assembly, return exactly the bytes that the same formulas over GF(p^2) give, whatever uninitialised memory holds; on shorter buffers they read out of bounds. Hence for all private keys both sides, in any combination of builds, obtain the same bytes (unless the validation confuses the values it compares), and what a successful validation guarantees (C77, C79) holds for the words.", "quantifier": "all private keys and public keys (any bytes), all contents of uninitialised memory, both builds, all four primes", "why_tests_cant": "Operands leave the documented ranges in several places (constants of the key generation up to 8p, the end of EphemeralSecretAgreement_A up to 2.5p); that the result is right nevertheless depends on the values.", "anchors": ["c-impl/PQCrypto-SIDH/src/sidh.c: whole file", "c-impl/PQCrypto-SIDH/src/ec_isogeny.c: inv_3_way, get_A, xTPL_fast, LADDER3PT"]}
{"id": "C82", "title": "Key encapsulation on words", "statement": "crypto_kem_keypair, crypto_kem_enc and crypto_kem_dec call the key exchange with buffers of the right sizes only, and therefore do on words, for all arguments, what they do over the field. With any random bytes key generation and encapsulation succeed, and decapsulation yields the secret of the encapsulation unless the validation confuses the values it compares; each of the three may run in its own build.", "quantifier": "all random bytes, all contents of the buffers, both builds, all four primes", "why_tests_cant": "It covers all keys and messages and all combinations of builds.", "anchors": ["c-impl/PQCrypto-SIDH/src/sike.c: crypto_kem_keypair, crypto_kem_enc, crypto_kem_dec", "c-impl/PQCrypto-SIDH/src/sidh.c: whole file"]}
{"id": "C83", "title": "The parameters are those of the script, and the repetitions suffice", "statement": "POIK_REPS, POIK_WIDTH and POIK_HEIGHT are, for all four sizes, the numbers that scripts/statistical_parameters.py computes for its second table (in exact arithmetic): the least lengths between 100 and 2000 whose bound is below 2^-security, divided by e2 and e3 and rounded up, and security/log2(3/2) rounded up. (2/3)^POIK_REPS is at most 2^-security, and (2/3)^(POIK_REPS-1) is not.", "quantifier": "all four parameter sets", "why_tests_cant": "The numbers are spread over a script and a header; the comparisons involve logarithms of numbers with hundreds of digits, which floating point only approximates.", "anchors": ["scripts/statistical_parameters.py: whole file", "c-impl/PQCrypto-SIDH/src/poik.h: POIK_REPS, POIK_WIDTH, POIK_HEIGHT"]}
{"id": "C84", "title": "The bound of the parameter script does not cover the walks the code takes (finding)", "statement": "The script takes the length of the 3-walk from a bound that depends on the degree 2^two_len of the secret isogeny, with the least two_len that mixes (705, 774, 1010, 1280). The secret of the code has degree 2^(e2*POIK_WIDTH), that is 864, 1000, 1220, 1488. For the walks that the code takes the same bound is between 2^-104 and 2^-103, 2^-123 and 2^-122, 2^-142 and 2^-141, 2^-198 and 2^-197 instead of below 2^-128, 2^-128, 2^-192, 2^-256. POIK_HEIGHT = 8 would meet it.", "quantifier": "all four parameter sets", "why_tests_cant": "No test compares the lengths of the walks with the bound they were derived from.", "anchors": ["scripts/statistical_parameters.py: stat_distance_three, two_len", "c-impl/PQCrypto-SIDH/src/poik.h: POIK_WIDTH, POIK_HEIGHT"]}
{"id": "C85", "title": "The field functions of the ARM64 build", "statement": "For all four primes, from every state with accessible, aligned arguments at any addresses (output apart from the inputs, or in place where the signature allows it), mp_add, fpadd, fpsub, mp_sub_p2, mp_sub_p4, mp_subaddx2, mp_dblsubx2 and (for inputs below 2^(64n) p) rdc of P*/ARM64/fp_arm64_asm.S return to the caller with x19-x29 and sp preserved, write nothing but the output and the stack below sp, and leave exactly the words of the portable function in the output. For p434 and p610 so does mul, for inputs below 120p.", "quantifier": "all states, addresses, permissions and inputs; all four primes", "why_tests_cant": "The ARM code is not run by the tests on other machines, and carries are propagated wrongly only for one operand in 2^64 or fewer (C87, C88 show that this happens).", "anchors": ["c-impl/PQCrypto-SIDH/src/P434/ARM64/fp_arm64_asm.S", "c-impl/PQCrypto-SIDH/src/P503/ARM64/fp_arm64_asm.S", "c-impl/PQCrypto-SIDH/src/P610/ARM64/fp_arm64_asm.S", "c-impl/PQCrypto-SIDH/src/P751/ARM64/fp_arm64_asm.S", "c-impl/PQCrypto-SIDH/src/P434/ARM64/fp_arm64.c"]}
{"id": "C86", "title": "The protocol in the ARM64 build, p434 and p610", "statement": "In the build for 64-bit ARM with p434 or p610, Generate, Prove and Verify end as the functions over GF(p^2) do, and give the same result as the portable and the x86-64 build from the same inputs and random bytes. Verify has no undefined behaviour, returns true exactly for valid proofs, and accepted proofs contain the isogenies. The key exchange functions return the same bytes as in the other builds.", "quantifier": "all inputs, all random bytes, all contents of uninitialised memory; p434 and p610", "why_tests_cant": "Two builds cannot be compared on all inputs, and for the two other primes the builds do differ (C87, C88).", "anchors": ["c-impl/PQCrypto-SIDH/src/poik.c: Generate, Prove, Verify", "c-impl/PQCrypto-SIDH/src/P434/ARM64/fp_arm64_asm.S", "c-impl/PQCrypto-SIDH/src/P610/ARM64/fp_arm64_asm.S", "c-impl/PQCrypto-SIDH/src/fpx.c: fpmul_mont, fp2sqr_mont, fp2mul_mont"]}
{"id": "C87", "title": "The multiplication of the ARM64 build for p503 is wrong (finding)", "statement": "mul503_asm stores word 13 of the product before it adds the carry to it. For all inputs below 120p every word but this one is right, and in its place is word 5 of the product of the upper halves; so the result is right exactly if the two agree. There are elements below p, such as 2^416 - 1 and 2^416 + 2^256, for which fpmul_mont returns an element that is not their product modulo p. The product is right if the second factor is below 2^256.", "quantifier": "all inputs below 120p, all states", "why_tests_cant": "For random operands the carry in question occurs with probability about 2^-64; no random test finds it.", "anchors": ["c-impl/PQCrypto-SIDH/src/P503/ARM64/fp_arm64_asm.S: mul503_asm, lines 464-465"]}
{"id": "C88", "title": "The multiplication of the ARM64 build for p751 is wrong (finding)", "statement": "mul751_asm drops a borrow in the middle part of the Karatsuba multiplication. For all inputs a, b below 120p the result is a*b, except that it is a*b + 2^1216 exactly if, with a = a0 + 2^384 a1 and b = b0 + 2^384 b1, the middle term a0 b1 + a1 b0 and the upper half of a0 b0 add up to less than 2^384 but the middle term plus a1 b1, reduced modulo 2^384, and the upper half of a0 b0 do not. There are elements below p, such as 2^384 + 2 and 2^385 - 4, for which fpmul_mont returns an element that is not their product modulo p. The product is right if the second factor is below 2^384.", "quantifier": "all inputs below 120p, all states", "why_tests_cant": "It needs operands with small upper halves, which random tests do not hit.", "anchors": ["c-impl/PQCrypto-SIDH/src/P751/ARM64/fp_arm64_asm.S: mul751_asm, lines 709-785"]}
{"id": "C89", "title": "Use of the platform register x18 (finding)", "statement": "The ARM64 functions for p434 leave x18 as it was. Of those for the other primes eleven (eight for p503, mp_dblsub610x2, mp_add751, mp_dblsub751x2) overwrite it before reading it: the value of x18 at the call has no influence on anything, so from every successful call one with a different value of x18 ends with x18 changed. The others leave it as it was. On Apple machines, a target of the Makefile (ARCH=M1), programs may not use x18.", "quantifier": "all states; all functions called from C, all four primes", "why_tests_cant": "Whether it goes wrong depends on when the operating system uses the register.", "anchors": ["c-impl/PQCrypto-SIDH/src/P503/ARM64/fp_arm64_asm.S", "c-impl/PQCrypto-SIDH/src/P610/ARM64/fp_arm64_asm.S: mp_dblsub610x2_asm", "c-impl/PQCrypto-SIDH/src/P751/ARM64/fp_arm64_asm.S: mp_add751_asm, mp_dblsub751x2_asm"]}
{"id": "C90", "title": "mp_add610x2_asm does not add (finding)", "statement": "The ARM64 function mp_add610x2_asm for the addition of numbers of 20 words (not called from C) reads past the end of its first input, so every call in which the memory there is not accessible fails, and it never writes the words 10 and 11 of its output; for 2^640 + 0 it gives 0 if the output was zero before.", "quantifier": "all states", "why_tests_cant": "The function is not called, so no test reaches it.", "anchors": ["c-impl/PQCrypto-SIDH/src/P610/ARM64/fp_arm64_asm.S: mp_add610x2_asm, lines 913-970"]}
{"id": "C91", "title": "The addresses accessed by the assembly functions do not depend on the data", "statement": "For every assembly function of the default x86-64 build and of the 64-bit ARM build, all four parameter sets: two calls that return and that were made with the same pointers (argument registers and stack pointer) read and write the same addresses in the same order, whatever the contents of the arrays, the rest of the memory, the other registers and the flags. Since the functions have no branches, neither the instructions executed nor the addresses accessed reveal anything about the field elements.", "quantifier": "all pairs of calls with equal pointers (all memories, registers, flags, environments), all assembly functions, all four parameter sets", "why_tests_cant": "It is a statement about pairs of executions, over all pairs of field elements of 434 to 751 bits; a test can compare a few timings or traces.", "anchors": ["c-impl/PQCrypto-SIDH/src/P434/AMD64/fp_x64_asm.S (and P503, P610, P751): all functions", "c-impl/PQCrypto-SIDH/src/P434/ARM64/fp_arm64_asm.S (and P503, P610, P751): all functions"]}
{"id": "C92", "title": "The field arithmetic with 32-bit digits leaves the same memory", "statement": "With RADIX = 32 (x86, ARM) every function of the portable field arithmetic, the encoding and decoding of field elements, the comparison of field elements, the conditional swap and the scalar multiplications leave the same bytes in memory as with RADIX = 64, for all four primes: the functions without a multiplication for all arrays, the reduction for all inputs below R p, squaring for components below 4p, multiplication in GF(p^2) for components below Bp and Cp with 2BC <= 256. A byte of the array for the scalar that is never written with p434 does not influence the result.", "quantifier": "all arrays of digits in the stated ranges, all four primes", "why_tests_cant": "Both builds would have to be run on all operands; carries run differently through digits of different sizes.", "anchors": ["c-impl/PQCrypto-SIDH/src/config.h: RADIX, ADDC, SUBC, MUL", "c-impl/PQCrypto-SIDH/src/P434/generic/fp_generic.c (and P503, P610, P751)", "c-impl/PQCrypto-SIDH/src/fpx.c: encode_to_bytes, decode_to_digits", "c-impl/PQCrypto-SIDH/src/poik.c: fp_lt, Ladder", "c-impl/PQCrypto-SIDH/src/ec_isogeny.c: swap_points, LADDER3PT"]}
{"id": "C93", "title": "The protocol with 32-bit digits, p434 and p503", "statement": "In the portable build with 32-bit digits and p434 or p503, Generate, Prove and Verify end as the functions over GF(p^2) do on the elements that the random bytes stand for there (430 and 489 bits of each string). Verify has no undefined behaviour and returns true exactly for valid proofs; its verdict agrees with the one of the builds with 64-bit digits; proofs of this build are accepted by all of them. The key exchange returns the same bytes as with 64-bit digits for all four primes.", "quantifier": "all inputs, all random bytes, all contents of uninitialised memory; p434 and p503 (the key exchange: all four primes)", "why_tests_cant": "Two builds cannot be compared on all inputs, and for the two other primes the protocol does not work as intended (C94).", "anchors": ["c-impl/PQCrypto-SIDH/src/poik.c: Generate, Prove, Verify, fprand", "c-impl/PQCrypto-SIDH/src/sidh.c: whole file"]}
{"id": "C94", "title": "Random elements with 32-bit digits are out of range for p610 and p751 (finding)", "statement": "fprand masks the top digit with (digit_t)(-1) >> (NBITS_FIELD % RADIX), which keeps RADIX - NBITS_FIELD % RADIX bits. With 32-bit digits the elements have 430 bits for p434 and 489 for p503 (in range), but 638 for p610 and 753 for p751: for p610 fewer than one in 2^26 is below 2p, for p751 fewer than half. With p610 the right-hand side of the curve equation computed in random_point stands for x^3 + A x^2 + 2x, and is itself out of range, for every draw whose second number has at least 631 bits and is at least three times the first. With p751 the decision in random_point is right for all draws, but fp2sqr_mont is off by the sum of the components if the imaginary part exceeds the real part by more than 4p, and there are random bytes that random_point accepts and from which xDBL computes a point that is not the double.", "quantifier": "all random bytes, all curve coefficients in range", "why_tests_cant": "The build with 32-bit digits is not the default; with p751 most draws give the right result, and a wrong order of a point only shows later or not at all.", "anchors": ["c-impl/PQCrypto-SIDH/src/poik.c: fprand, random_point", "c-impl/PQCrypto-SIDH/src/P610/P610_internal.h: NBITS_FIELD", "c-impl/PQCrypto-SIDH/src/P751/P751_internal.h: NBITS_FIELD", "c-impl/PQCrypto-SIDH/src/fpx.c: fp2mul_mont, fp2sqr_mont", "c-impl/PQCrypto-SIDH/src/ec_isogeny.c: xDBL"]}
{"id": "C95", "title": "The functions work on memory as they do on values, also in place", "statement": "In the portable build, executed on memory digit by digit: every function of the field arithmetic, called with pointers such that each input is the output or disjoint from it, leaves at the output what the functional model computes from the inputs as they were before the call, and changes nothing else below the stack pointer. The same holds for the functions of ec_isogeny.c and for fp2div, AC_to_AAC24, AC24_to_AC, AA24_to_AC, eval_iso and Ladder in poik.c, with disjoint arguments, and for the in-place calls that the code makes (xDBLe(P, P), xTPLe(P, P), eval_iso(iso, P, P), fp2div(X, Z, X)): they compute the multiple of the point etc. over GF(p^2) for all elements in range. With overlapping arrays the field functions compute something else.", "quantifier": "all memories, all addresses that satisfy the stated conditions, all iteration counts, all four primes", "why_tests_cant": "The number of ways to place the arguments is unbounded; an aliasing error only shows for the calls that alias and for operands for which the overwritten digit matters.", "anchors": ["c-impl/PQCrypto-SIDH/src/P434/generic/fp_generic.c (and P503, P610, P751)", "c-impl/PQCrypto-SIDH/src/fpx.c", "c-impl/PQCrypto-SIDH/src/ec_isogeny.c", "c-impl/PQCrypto-SIDH/src/poik.c: fp2div, AC_to_AAC24, AC24_to_AC, AA24_to_AC, eval_iso, Ladder, and the calls at 319, 320, 442, 581, 582, 619, 683, 1049, 1073"]}
{"id": "C96", "title": "Square roots, comparisons and Montgomery models on memory", "statement": "In the portable build, executed on memory: fp_equal, fp2_equal and fp2_iszero return 255 or 0 according to equality in GF(p^2) and leave everything below the stack pointer alone; fp2sqrt reports whether its argument is a square and then leaves a root; ct_cmov on isomorphisms, byte by byte, copies or does nothing; canonical_model on a curve with (p+1)^2 points stays within its arrays and leaves an isomorphism to the model with the least coefficient; change_model leaves another model and the identity. None of them changes anything but its output. canonical_model leaves its arrays exactly if one of its quadratic equations has a double root.", "quantifier": "all memories, all addresses of disjoint arguments, all field elements in range, all curves; all four primes", "why_tests_cant": "Local arrays, outputs and inputs share one memory; a write past the end of an array or into a still needed variable would only show for some layouts and operands.", "anchors": ["c-impl/PQCrypto-SIDH/src/poik.c: fp_equal, fp2_equal, fp2_iszero, ct_cmov, fp2sqrt, solve_quadratic, all_models, canonical_model, change_model"]}
{"id": "C97", "title": "Isogenies and random points on memory", "statement": "In the portable build, executed on memory: Isogeny_A and Isogeny_B, whatever their pointers EE, Q and back (each may be NULL, EE may be E, otherwise disjoint), return true exactly if the point at K has order 2^e2 or 3^e3. They then leave at EE the codomain of an isogeny with the kernel generated by this point, at Q the image of the point that was there, and at back the image of a point of order 2 or 3 outside the kernel, and nothing else below the stack pointer has changed. If they return false, EE and back are untouched (Isogeny_B leaves Q alone as well and reads no random bytes). The strategy loops stay within the arrays of points and of indices. random_point_with_order, if it returns, leaves at P a point of order q^e over GF(p^2), for the e that it returns, and at Q its multiple of order q.", "quantifier": "all memories, all addresses that satisfy the stated conditions, all curves with (p+1)^2 points (Isogeny_B: all nonsingular ones), all kernel points, all random bytes; all four primes", "why_tests_cant": "The two functions run for hundreds of steps over arrays of intermediate points on the stack, and the callers pass different combinations of pointers, one of them with input and output the same.", "anchors": ["c-impl/PQCrypto-SIDH/src/poik.c: fprand, random_point, random_point_with_order, proj_equal, Isogeny_A, Isogeny_B"]}
{"id": "C98", "title": "Strings, Check_Curve and chains on memory", "statement": "In the portable build, executed on memory digit by digit and byte by byte: fp2_encode writes the two least residues, little-endian, and changes no other byte, even if the string lies in its argument or is not aligned; fp2_decode writes the element of GF(p^2) that the string stands for, whatever was there, and nothing else; one after the other they give back the element. Check_Curve has no undefined behaviour, changes nothing in the memory of its caller, and if it returns, returns true exactly if the curve has (p+1)^2 points with the Frobenius acting as -p, whatever the stack contained. Unpack_Chain_A and Unpack_Chain_B, for n > 0 strings that lie one after the other and an initial string of a curve with (p+1)^2 points, have no undefined behaviour, change nothing but the curve at E, and if they return true, leave there a curve to which an isogeny with cyclic kernel of order 2^(n e2) or 3^(n e3) leads from the initial one.", "quantifier": "all memories, all addresses that satisfy the stated conditions, aligned or not, all numbers of strings, all contents of the strings, all random bytes; all four primes", "why_tests_cant": "The strings are the input of an adversary, and what the functions do with them passes through uninitialised variables of the stack frame; an error in a pointer would only show for some contents and layouts.", "anchors": ["c-impl/PQCrypto-SIDH/src/poik.c: Check_Curve, unpack_curve, unpack_point, Unpack_Chain_A, Unpack_Chain_B", "c-impl/PQCrypto-SIDH/src/fpx.c: encode_to_bytes, decode_to_digits, fp2_encode, fp2_decode"]}
{"id": "C99", "title": "Unpack_Response, Challenge and Verify on memory", "statement": "In the portable build without threads, executed on memory digit by digit and byte by byte, with SHAKE256 as hash: Verify, on whatever bytes lie at its argument, has no undefined behaviour, changes nothing in the memory of its caller, and if it returns, returns true exactly if the bytes are a valid proof. If it returns true, the curves in the first two strings have (p+1)^2 points, every response opens a pair of hashes for the value of its tag modulo 256, and these values are the first trits of SHAKE256 on the two j-invariants and all the hashes. Unpack_Response, for end curves with (p+1)^2 points, has no undefined behaviour, changes nothing but *which and *comm, and if it returns true, leaves there a tag and hashes that the response opens. The structs are read at the offsets given by poik.h: responses of 872, 984, 1228 and 1512 bytes, proofs of 191188, 215748, 404320 and 662632 bytes.", "quantifier": "all memories, all addresses of the proof (aligned or not) below the stack, all contents, all random bytes, all contents of the uninitialised variables; all four parameter sets", "why_tests_cant": "The proof is the input of an adversary; the commitments, tags and the challenge lie side by side on the stack and are filled in by different functions.", "anchors": ["c-impl/PQCrypto-SIDH/src/poik.c: enc_j, hash_hiding, sample_ternary, Challenge, Unpack_Response, Verify", "c-impl/PQCrypto-SIDH/src/poik.h: struct proof"]}
{"id": "C100", "title": "Generate on memory", "statement": "In the portable build, executed on memory digit by digit and byte by byte: Generate, for a starting curve and a struct secret anywhere below the stack pointer (they may overlap), has no undefined behaviour; it returns true exactly if the starting curve has (p+1)^2 points. Then the first string of the secret is that curve, the last one is a curve with (p+1)^2 points, and there is a cyclic isogeny of degree 2^(e2*width) from the first to the last; all bytes of the secret are those that the algorithm computes over GF(p^2). No byte outside the secret has changed; if the function returns false, no byte at all. The random walks Random_Isogeny_Chain_A and Random_Isogeny_Chain_B, in which the next kernel point is drawn until it does not lead back, are executed with their arrays of curves and points in memory.", "quantifier": "all memories, all addresses, all starting curves, all random bytes; all four primes", "why_tests_cant": "A walk keeps its curves, kernel points and the point to avoid in arrays on the stack, next to the buffers of the functions it calls; an overlap would show only in the values of later steps.", "anchors": ["c-impl/PQCrypto-SIDH/src/poik.c: Random_Point_AB, Random_Isogeny_Chain_A, Random_Isogeny_Chain_B, fp2div_enc, Generate"]}
{"id": "C101", "title": "Instance, Pack_Response and Prove on memory, and the whole honest run", "statement": "In the portable build, executed on memory digit by digit and byte by byte, with SHAKE256 as hash: Prove, on a secret that Generate left somewhere below the stack, with room for a proof and with the array of instances from malloc disjoint from both, has no undefined behaviour. If it returns, nothing but the proof and the array has changed, the two curves in the proof are isomorphic to the first and the last curve of the secret, and the bytes of the proof are those that Prove computes on field elements. If the bytes of this proof are then given to Verify, on any memory and with any random bytes, Verify has no undefined behaviour and can only return true, unless one of the curves strictly inside one of the chains of the prover has j-invariant 0 or 1728. If malloc fails, Prove aborts.", "quantifier": "all memories, all addresses that satisfy the stated conditions, aligned or not for the secret and the proof, all secrets from Generate, all random bytes, all numbers of hash blocks; all four primes", "why_tests_cant": "The instances are an array of up to seven megabytes written through pointers by nested loops; a wrong offset for one cell, or a response packed from the wrong member, shows only for the challenges that select it.", "anchors": ["c-impl/PQCrypto-SIDH/src/poik.c: Instance, Pack_Response, Pack_Chain_A, Pack_Chain_B, Prove, Verify"]}
{"id": "C102", "title": "The test program on memory", "statement": "In the portable build, executed on memory byte by byte, with SHAKE256 as hash: test.c, started as its main does with the curve 0, has no undefined behaviour, for any number of benchmark rounds and any results of malloc (blocks below the stack that overlap neither each other nor the constant E0, or failures). It changes nothing but these blocks. test_poik, if it returns, returns true exactly if the proof was valid before bit 0 of its byte 345 was flipped and is not valid after; bench_poik exactly if the proof is valid; the exit status is 0 if and only if test_poik returned true. render_progress, in the rounds of the benchmark, stays inside its buffer and prints a bar of 64 characters; one further call with idx = BENCH_LOOPS, which main does not make, would print an unterminated string.", "quantifier": "all memories with 0 at E0, all addresses that satisfy the stated conditions, all random bytes, all numbers of benchmark rounds; all four primes; all numbers of the last bar", "why_tests_cant": "The test exercises itself only with the randomness of that run; that its verdict means what it says is a statement about all of them.", "anchors": ["c-impl/test.c: test_poik, bench_poik, main, render_progress"]}
{"id": "C103", "title": "What the negative test checks", "statement": "test_poik, started with the curve 0 (portable build, on memory, SHAKE256), if it returns and got memory for the proof, returns true, except that a curve strictly inside one of the chains of the prover has j-invariant 0 or 1728, or Verify accepts the proof both before and after bit 0 of its byte 345 is flipped. The latter means: the inputs of the challenge hash differ and yet give the same challenge; or they are the same and, for p751, the second curve of the proof is another one with the same j-invariant; for p610, the first challenge is not 1 and the commitment h2 is opened with two different strings; for p503, the first challenge is not -1 and the commitment h3 is opened with two different strings; for p434, the first challenge is 0 and h3 is opened with two different strings, or the first point of the first chain is another one and the commitment to its end is opened with the same string. So the byte belongs to a different part of the proof for each prime.", "quantifier": "all memories with 0 at E0, all addresses that satisfy the conditions of C102, all random bytes; all four primes", "why_tests_cant": "Each run of the test sees one proof and one bit; the exceptions occur with a probability that no number of runs would show.", "anchors": ["c-impl/test.c: test_poik", "c-impl/PQCrypto-SIDH/src/poik.c: Verify, Unpack_Response, Challenge"]}
{"id": "C104", "title": "The command-line tools on memory", "statement": "In the portable build, executed on memory byte by byte, with SHAKE256 as hash: verify (main of verify.c), with the proof structure from malloc anywhere below the stack, has undefined behaviour only if malloc succeeds and Parse has it. Otherwise its exit status is 1 exactly if malloc fails, 255 exactly if the input does not start with a text of a proof, 2 exactly if that proof is not valid, 3 exactly if it is valid and an output call fails, 0 exactly if it is valid and its two curves are written; with status 1, 2 or 255 nothing is printed; no byte below the stack outside the proof structure changes. prove (main of prove.c), with the proof structure and the array of Prove below the stack and apart, has undefined behaviour only if it reads its input and Parse_Fp2 has it; its exit status is 255, 1, 2 exactly for no curve on the input, a curve without (p+1)^2 points, and no memory; with status 0 or 3 the proof structure in memory holds a well-formed proof whose first curve is isomorphic to the starting curve, and without faults of the output the status is 0 and the text printed is that of this proof and is read back as it. If this text is the start of the input of verify, and memory and output are available there, verify exits with 0 and prints the two curves in the prover's memory, unless a curve strictly inside one of the prover's chains has j-invariant 0 or 1728.", "quantifier": "all memories, all addresses that satisfy the stated conditions, all inputs, arguments, output faults and random bytes; all four primes", "why_tests_cant": "The tools are run on a few good inputs; what they do on every other input, and that what is parsed ends up at the offsets that Verify reads, is a statement about all of them.", "anchors": ["c-impl/prove.c: main", "c-impl/verify.c: main", "c-impl/PQCrypto-SIDH/src/poik.c: Parse, Dump, Generate, Prove, Verify", "c-impl/PQCrypto-SIDH/src/poik.h: struct proof, struct response"]}
{"id": "C105", "title": "The tools free what they allocate, once and on every way out; the test program leaks one proof per round", "statement": "With an allocator about which only the promises of malloc are known (aligned blocks below the stack that overlap no block in use and no static object), and which may fail at any call: main of verify.c and main of prove.c, with the array that Prove allocates inside, call free only on blocks that are allocated at that time, end on every way out (success, bad input, invalid proof, failed write, failed allocation of the proof) with exactly the blocks allocated that were allocated at the start, change no byte of any other block, and have undefined behaviour exactly in the cases of C104. test.c with BENCH_LOOPS = n has no undefined behaviour, and Prove's array is freed in every round, but no proof is: when main returns 0 with enough memory, n + 1 proofs are still allocated, and one when it returns 1.", "quantifier": "for all allocators that keep the promises of malloc, all states of the heap and memory contents, all standard inputs, arguments and output files, all randomness, all n, all four parameter sets", "why_tests_cant": "Which calls of malloc fail, and where blocks lie, is up to the system; a double free or a leak on an error path shows only if that path is taken, and the leak in test.c is invisible to a test because the program exits.", "anchors": ["c-impl/prove.c:8-43", "c-impl/verify.c:7-38", "c-impl/test.c:97-200", "c-impl/PQCrypto-SIDH/src/poik.c:1406-1461"]}
