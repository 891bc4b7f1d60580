{
 "claims": [
  {
   "property": "C01",
   "status": "proved",
   "theorems": [
    "Secuer.Text.C01_dump_parse_roundtrip",
    "Secuer.Text.C01_dumpC_parse_roundtrip"
   ],
   "note": "Both for the tagged view and for the in-memory image with a union."
  },
  {
   "property": "C02",
   "status": "proved",
   "theorems": [
    "Secuer.Text.C02_dump_parse_fp2"
   ],
   "note": ""
  },
  {
   "property": "C03",
   "status": "proved",
   "theorems": [
    "Secuer.Text.C03_text_prefix_free",
    "Secuer.Text.C03_dump_injective"
   ],
   "note": ""
  },
  {
   "property": "C04",
   "status": "proved",
   "theorems": [
    "Secuer.Text.C04_parse_wellformed",
    "Secuer.Text.C04_parse_language",
    "Secuer.Text.C04_parse_ub_reachable",
    "Secuer.EdgeProps.ctypeUB_iff"
   ],
   "note": "Last theorem is a finding: some files drive Parse into undefined behaviour (%d overflow, isxdigit on a negative char)."
  },
  {
   "property": "C05",
   "status": "proved",
   "theorems": [
    "Secuer.Text.C05_parse_ignores_trailing"
   ],
   "note": ""
  },
  {
   "property": "C06",
   "status": "proved",
   "theorems": [
    "Secuer.Text.C06_truncated_rejected",
    "Secuer.Text.C06_missing_newline_accepted"
   ],
   "note": ""
  },
  {
   "property": "C07",
   "status": "proved",
   "theorems": [
    "Secuer.Text.C07_dump_reports_errors",
    "Secuer.Text.C07_dump_misses_tag_errors"
   ],
   "note": "The first theorem is the exact condition under which Dump returns true, the second that a lost tag line goes unnoticed."
  },
  {
   "property": "C08",
   "status": "proved",
   "theorems": [
    "Secuer.Challenge.C08_challenge_trits",
    "Secuer.EdgeProps.trit_store"
   ],
   "note": ""
  },
  {
   "property": "C09",
   "status": "proved",
   "theorems": [
    "Secuer.Challenge.C09_challenge_streaming",
    "Secuer.Challenge.C09_challenge_block_size"
   ],
   "note": ""
  },
  {
   "property": "C10",
   "status": "proved",
   "theorems": [
    "Secuer.Challenge.C10_sampling_uniform",
    "Secuer.Challenge.C10_sampling_bijective",
    "Secuer.Challenge.C10_challenge_reachable"
   ],
   "note": "Uniformity is an exact count over all byte strings of any length."
  },
  {
   "property": "C11",
   "status": "proved",
   "theorems": [
    "Secuer.Challenge.C11_finishes_iff",
    "Secuer.Challenge.C11_reads_minimal"
   ],
   "note": ""
  },
  {
   "property": "C12",
   "status": "proved",
   "theorems": [
    "Secuer.ProtocolProps.c12_commit_injective",
    "Secuer.ProtocolProps.c12_challenge_injective",
    "Secuer.ProtocolProps.c12_domain_separation",
    "Secuer.ProtocolProps.c12_code"
   ],
   "note": ""
  },
  {
   "property": "C13",
   "status": "proved",
   "theorems": [
    "Secuer.KeccakProps.C13_permutation",
    "Secuer.KeccakProps.C13_shake256",
    "Secuer.KeccakProps.C13_shake256_iff",
    "Secuer.KeccakProps.C13_hash"
   ],
   "note": "The specification is a bit-level transcription of FIPS 202 (Verif/Keccak/Spec.lean), validated against a known answer. The model of fips202.c covers loads, stores, all 24 rounds as written, absorbing, padding and squeezing; reads out of bounds would be none."
  },
  {
   "property": "C14",
   "status": "proved",
   "theorems": [
    "Secuer.KeccakProps.C14_prefix",
    "Secuer.KeccakProps.C14_split",
    "Secuer.KeccakProps.C14_blocks",
    "Secuer.KeccakProps.C14_hash",
    "Secuer.KeccakProps.C14_challenge",
    "Secuer.KeccakProps.C24_shake"
   ],
   "note": ""
  },
  {
   "property": "C15",
   "status": "proved",
   "theorems": [
    "Secuer.ProtocolProps.c15_verdict",
    "Secuer.ProtocolProps.c15_threaded",
    "Secuer.ProtocolProps.c15_no_ub",
    "Secuer.ProtocolProps.c15_sound",
    "Secuer.ProtocolProps.c15_accepts_iff"
   ],
   "note": "Sequential and threaded verifier; the hash function is arbitrary. c15_sound spells out what acceptance means; c15_accepts_iff shows that a run that accepts exists for every valid proof."
  },
  {
   "property": "C16",
   "status": "proved",
   "theorems": [
    "Secuer.Threads.C16_verdict_schedule_independent",
    "Secuer.Threads.C16_verdict_eq_sequential",
    "Secuer.Threads.C16_success_means_all_processed",
    "Secuer.Threads.C16_needs_a_thread"
   ],
   "note": "Sequentially consistent interleavings, as C11 atomics with default ordering give."
  },
  {
   "property": "C17",
   "status": "proved",
   "theorems": [
    "Secuer.Threads.C17_each_index_once",
    "Secuer.Threads.C17_no_sharing"
   ],
   "note": ""
  },
  {
   "property": "C18",
   "status": "proved",
   "theorems": [
    "Secuer.Threads.C18_bounded_steps",
    "Secuer.Threads.C18_progress",
    "Secuer.Threads.C18_fetches_and_index",
    "Secuer.Threads.C18_terminates",
    "Secuer.Threads.C18_progress_compute",
    "Secuer.Threads.C18_terminates_compute"
   ],
   "note": ""
  },
  {
   "property": "C19",
   "status": "proved",
   "theorems": [
    "Secuer.ProtocolProps.c19_special_soundness"
   ],
   "note": "The collision is between inputs read off the responses."
  },
  {
   "property": "C20",
   "status": "proved",
   "theorems": [
    "Secuer.ProtocolProps.c20_challenge_binds",
    "Secuer.ProtocolProps.c12_challenge_injective"
   ],
   "note": ""
  },
  {
   "property": "C21",
   "status": "proved",
   "theorems": [
    "Secuer.ProtocolProps.c21_residues_only",
    "Secuer.ProtocolProps.c21_two_encodings"
   ],
   "note": ""
  },
  {
   "property": "C22",
   "status": "proved",
   "theorems": [
    "Secuer.ProtocolProps.c22_tag_mod_256",
    "Secuer.ProtocolProps.c22_dump_refuses",
    "Secuer.ProtocolProps.c22_parsed",
    "Secuer.EdgeProps.tag_range"
   ],
   "note": "Finding."
  },
  {
   "property": "C23",
   "status": "proved",
   "theorems": [
    "Secuer.ProtocolProps.c23_response",
    "Secuer.ProtocolProps.c23_left_independent_of_secret"
   ],
   "note": ""
  },
  {
   "property": "C24",
   "status": "proved",
   "theorems": [
    "Secuer.ProtocolProps.c24_complete",
    "Secuer.ProtocolProps.c24_no_ub",
    "Secuer.ProtocolProps.c24_well_formed",
    "Secuer.ProtocolProps.c24_via_file"
   ],
   "note": "Accepted unless an interior curve of a chain has j-invariant 0 or 1728, as the property presupposes valid chains; the exception is explicit in the statement."
  },
  {
   "property": "C25",
   "status": "proved",
   "theorems": [
    "Secuer.Util.C25_render_in_bounds",
    "Secuer.Util.C25_callers_in_bounds",
    "Secuer.EdgeProps.byte_store",
    "Secuer.EdgeProps.memset_edge",
    "Secuer.EdgeProps.eraseLine_eq",
    "Secuer.EdgeProps.doneOf_eq"
   ],
   "note": ""
  },
  {
   "property": "C26",
   "status": "proved",
   "theorems": [
    "Secuer.Util.C26_proves_order_sound",
    "Secuer.Util.C26_proves_order_complete"
   ],
   "note": ""
  },
  {
   "property": "C27",
   "status": "proved",
   "theorems": [
    "Secuer.ChainProps.c27_check_sound",
    "Secuer.ChainProps.c28_accepts_iff"
   ],
   "note": "Hasse's bound is proved (Curve/Manin.lean), primality of the four characteristics too (Field/Prime.lean)."
  },
  {
   "property": "C28",
   "status": "proved",
   "theorems": [
    "Secuer.ChainProps.c28_check_complete",
    "Secuer.ChainProps.c28_right_order",
    "Secuer.ChainProps.c27_c28_verdict",
    "Secuer.ChainProps.c28_no_ub"
   ],
   "note": ""
  },
  {
   "property": "C29",
   "status": "proved",
   "theorems": [
    "Secuer.ChainProps.c29_uninitialised"
   ],
   "note": ""
  },
  {
   "property": "C30",
   "status": "proved",
   "theorems": [
    "Secuer.CurveProps.c30_xDBL",
    "Secuer.CurveProps.c30_xDBLe"
   ],
   "note": "Against Mathlib's group law, any field of characteristic other than 2."
  },
  {
   "property": "C31",
   "status": "proved",
   "theorems": [
    "Secuer.CurveProps.c31_xTPL",
    "Secuer.CurveProps.c31_xTPLe"
   ],
   "note": ""
  },
  {
   "property": "C32",
   "status": "proved",
   "theorems": [
    "Secuer.CurveProps.c32_xDBLADD",
    "Secuer.CurveProps.c32_ladder"
   ],
   "note": ""
  },
  {
   "property": "C33",
   "status": "proved",
   "theorems": [
    "Secuer.CurveProps.c33_models",
    "Secuer.CurveProps.c33_complete",
    "Secuer.CurveProps.c33_map"
   ],
   "note": "The square root routine enters by its contract (GoodSqrt)."
  },
  {
   "property": "C34",
   "status": "proved",
   "theorems": [
    "Secuer.CurveProps.c34_least",
    "Secuer.CurveProps.c34_packCurve"
   ],
   "note": "Packed curve as a field element; its byte encoding is the subject of C46."
  },
  {
   "property": "C35",
   "status": "proved",
   "theorems": [
    "Secuer.CurveProps.c35_jInv",
    "Secuer.CurveProps.c35_scale",
    "Secuer.CurveProps.c35_models"
   ],
   "note": ""
  },
  {
   "property": "C36",
   "status": "proved",
   "theorems": [
    "Secuer.CurveProps.c36_three"
   ],
   "note": "The formulas are the x-coordinates of a surjective group homomorphism with kernel generated by P."
  },
  {
   "property": "C37",
   "status": "proved",
   "theorems": [
    "Secuer.CurveProps.c37_two",
    "Secuer.CurveProps.c37_four"
   ],
   "note": ""
  },
  {
   "property": "C38",
   "status": "proved",
   "theorems": [
    "Secuer.CurveProps.c38_A_rejects",
    "Secuer.CurveProps.c38_A_accepts",
    "Secuer.CurveProps.c38_B_rejects",
    "Secuer.CurveProps.c38_B_accepts",
    "Secuer.CurveProps.isX_exists"
   ],
   "note": "That Verify rejects when the routine returns false is part of C15."
  },
  {
   "property": "C39",
   "status": "proved",
   "theorems": [
    "Secuer.CurveProps.c39_A",
    "Secuer.CurveProps.c39_B"
   ],
   "note": "The shipped tables are checked by running their control flow in the kernel; the data flow is proved for all kernel points."
  },
  {
   "property": "C40",
   "status": "proved",
   "theorems": [
    "Secuer.ChainProps.c40_chain_A",
    "Secuer.ChainProps.c40_chain_B"
   ],
   "note": "Concludes a homomorphism over the algebraic closure with cyclic kernel of full order, given by forms over GF(p^2)."
  },
  {
   "property": "C41",
   "status": "proved",
   "theorems": [
    "Secuer.ChainProps.c41_uniform",
    "Secuer.ChainProps.c41_generator",
    "Secuer.ChainProps.c41_code"
   ],
   "note": "Exact count over byte strings."
  },
  {
   "property": "C42",
   "status": "proved",
   "theorems": [
    "Secuer.Word.C42_fpadd",
    "Secuer.Word.C42_fpsub",
    "Secuer.Word.C42_fpneg",
    "Secuer.Word.C42_fpdiv2",
    "Secuer.Word.C42_fpcorrection",
    "Secuer.Word.C42_mp_sub"
   ],
   "note": "Portable backend (generic/fp_generic.c); for the x86-64 assembly see C69-C71."
  },
  {
   "property": "C43",
   "status": "proved",
   "theorems": [
    "Secuer.Word.C43_digit_x_digit",
    "Secuer.Word.C43_mp_mul"
   ],
   "note": "Portable backend (generic/fp_generic.c); for the x86-64 assembly see C69-C71."
  },
  {
   "property": "C44",
   "status": "proved",
   "theorems": [
    "Secuer.Word.C44_rdc_mont",
    "Secuer.Word.C44_fpmul_mont"
   ],
   "note": "Portable backend (generic/fp_generic.c); for the x86-64 assembly see C69-C71."
  },
  {
   "property": "C45",
   "status": "proved",
   "theorems": [
    "Secuer.Word.C45_fp2mul",
    "Secuer.Word.C45_fp2sqr",
    "Secuer.Word.C45_fp2_linear",
    "Secuer.Word.C45_fp2inv",
    "Secuer.Word.C45_mp2"
   ],
   "note": "Portable backend (generic/fp_generic.c); for the x86-64 assembly see C69-C71."
  },
  {
   "property": "C46",
   "status": "proved",
   "theorems": [
    "Secuer.Word.C46_chain",
    "Secuer.Word.C46_fpinv_chain_mont",
    "Secuer.Word.C46_fpinv_mont"
   ],
   "note": ""
  },
  {
   "property": "C47",
   "status": "proved",
   "theorems": [
    "Secuer.Word.C47_fp2sqrt",
    "Secuer.Word.C47_fp2sqrt_known",
    "Secuer.Word.C47_refines"
   ],
   "note": ""
  },
  {
   "property": "C48",
   "status": "proved",
   "theorems": [
    "Secuer.Word.C48_fp_equal",
    "Secuer.Word.C48_fp2_equal",
    "Secuer.Word.C48_two_p",
    "Secuer.WProtocolProps.C48_out_of_range"
   ],
   "note": "Finding: fp_equal(2p, 0) answers not equal."
  },
  {
   "property": "C49",
   "status": "proved",
   "theorems": [
    "Secuer.Word.C49_encode",
    "Secuer.Word.C49_decode",
    "Secuer.Word.C49_decode_encode",
    "Secuer.Word.C49_encode_decode",
    "Secuer.Word.C49_canonical",
    "Secuer.Word.C49_encode_refines",
    "Secuer.Word.C49_decode_refines"
   ],
   "note": "Little-endian machine."
  },
  {
   "property": "C50",
   "status": "proved",
   "theorems": [
    "Secuer.Word.C50_tables",
    "Secuer.Word.C50_sizes"
   ],
   "note": ""
  },
  {
   "property": "C51",
   "status": "proved",
   "theorems": [
    "Secuer.Word.C51_in_range",
    "Secuer.Word.C51_image",
    "Secuer.Word.C51_unreachable"
   ],
   "note": "Finding."
  },
  {
   "property": "C52",
   "status": "proved",
   "theorems": [
    "Secuer.Util.C52_randombytes_fills",
    "Secuer.Util.C52_randombytes_returns",
    "Secuer.Util.C52_eof_loops",
    "Secuer.Util.C52_large_request_unfilled",
    "Secuer.EdgeProps.toInt32_eq"
   ],
   "note": "The last two theorems are findings."
  },
  {
   "property": "C53",
   "status": "proved",
   "theorems": [
    "Secuer.Util.C53_ct_compare",
    "Secuer.Util.C53_ct_cmov"
   ],
   "note": ""
  },
  {
   "property": "C54",
   "status": "proved",
   "theorems": [
    "Secuer.CliProps.c54_verify",
    "Secuer.CliProps.c54_no_ub"
   ],
   "note": "Standard error output of the progress indicator is not modelled."
  },
  {
   "property": "C55",
   "status": "proved",
   "theorems": [
    "Secuer.CliProps.c55_prove",
    "Secuer.CliProps.c55_initial",
    "Secuer.CliProps.c55_pipeline",
    "Secuer.CliProps.c55_chain"
   ],
   "note": "Acceptance of honest proofs has the exception of C24: curves with j-invariant 0 or 1728 inside the walks."
  },
  {
   "property": "C56",
   "status": "proved",
   "theorems": [
    "Secuer.SageProps.C56_agree",
    "Secuer.SageProps.C56_differ"
   ],
   "note": "Sage model: pack, hash_hiding, challenge and the hashing part of unpack (Verif/Sage/Model.lean). Sage arithmetic, unpack_chain and the line parser are not modelled; the curves reached are arguments."
  },
  {
   "property": "C57",
   "status": "proved",
   "theorems": [
    "Secuer.KemProps.C57_decapsulation",
    "Secuer.EdgeProps.slice_none",
    "Secuer.EdgeProps.put_none",
    "Secuer.EdgeProps.sizes_fit",
    "Secuer.EdgeProps.sizes_pk"
   ],
   "note": "For arbitrary key-exchange functions of the right output lengths."
  },
  {
   "property": "C58",
   "status": "proved",
   "theorems": [
    "Secuer.KemProps.C58_keypair",
    "Secuer.KemProps.C58_encapsulation",
    "Secuer.KemProps.C58_correct",
    "Secuer.EdgeProps.keypair_fails"
   ],
   "note": ""
  },
  {
   "property": "C59",
   "status": "proved",
   "theorems": [
    "Secuer.ChainProps.c59_singular"
   ],
   "note": ""
  },
  {
   "property": "C60",
   "status": "proved",
   "theorems": [
    "Secuer.ChainProps.c60_hasse",
    "Secuer.ChainProps.c60_frobenius"
   ],
   "note": ""
  },
  {
   "property": "C61",
   "status": "proved",
   "theorems": [
    "Secuer.ChainProps.c61_start_curve"
   ],
   "note": ""
  },
  {
   "property": "C62",
   "status": "proved",
   "theorems": [
    "Secuer.ProtocolProps.c62_verdict_deterministic"
   ],
   "note": ""
  },
  {
   "property": "C63",
   "status": "proved",
   "theorems": [
    "Secuer.ProtocolProps.c63_generate",
    "Secuer.ProtocolProps.c63_instance"
   ],
   "note": ""
  },
  {
   "property": "C64",
   "status": "proved",
   "theorems": [
    "Secuer.ProtocolProps.c64_instance",
    "Secuer.ProtocolProps.c64_all"
   ],
   "note": ""
  },
  {
   "property": "C65",
   "status": "proved",
   "theorems": [
    "Secuer.CliProps.c65_unnoticed"
   ],
   "note": "Finding."
  },
  {
   "property": "C66",
   "status": "proved",
   "theorems": [
    "Secuer.WProtocolProps.C66_verify",
    "Secuer.WProtocolProps.C66_prove",
    "Secuer.WProtocolProps.C66_generate",
    "Secuer.WProtocolProps.C66_draws",
    "Secuer.WProtocolProps.C66_verify_no_ub",
    "Secuer.WProtocolProps.C66_verdict",
    "Secuer.WProtocolProps.C66_sound",
    "Secuer.WProtocolProps.C66_prover_no_ub",
    "Secuer.WProtocolProps.C66_complete"
   ],
   "note": "Portable backend (generic/fp_generic.c); for the x86-64 assembly see C69-C71."
  },
  {
   "property": "C67",
   "status": "proved",
   "theorems": [
    "Secuer.ProtocolProps.c67_prove",
    "Secuer.ProtocolProps.c67_no_ub",
    "Secuer.ProtocolProps.c67_complete",
    "Secuer.ProtocolProps.c67_verify"
   ],
   "note": "Each repetition draws from the operating system on its own; that is modelled as a tape per repetition."
  },
  {
   "property": "C68",
   "status": "proved",
   "theorems": [
    "Secuer.ProtocolProps.c68_returns_iff",
    "Secuer.ProtocolProps.c68_rejects_iff",
    "Secuer.ProtocolProps.c68_threaded_rejects_iff",
    "Secuer.ProtocolProps.c68_generate",
    "Secuer.CliProps.c68_verify_ends",
    "Secuer.Curve.checkCurve_total"
   ],
   "note": "Random points range over all of GF(p^2); the code draws from a subset (C51)."
  },
  {
   "property": "C69",
   "status": "proved",
   "theorems": [
    "Secuer.X64.C69_mp_add",
    "Secuer.X64.C69_fpadd",
    "Secuer.X64.C69_fpsub",
    "Secuer.X64.C69_sub_p2",
    "Secuer.X64.C69_calls",
    "Secuer.X64.C69_macros"
   ],
   "note": "Linux x86-64 build; instruction semantics as in X64/Model.lean."
  },
  {
   "property": "C70",
   "status": "proved",
   "theorems": [
    "Secuer.X64.C70_fpmul",
    "Secuer.X64.C70_fp2sqr_c0",
    "Secuer.X64.C70_fp2sqr_c1",
    "Secuer.X64.C70_fp2mul_c0",
    "Secuer.X64.C70_fp2mul_c1",
    "Secuer.X64.C70_751",
    "Secuer.X64.C70_calls",
    "Secuer.X64.C70_fpx"
   ],
   "note": "Build with _MULX_ and _ADX_ (the default). fp2mul*_c0 may differ from the portable result by p."
  },
  {
   "property": "C71",
   "status": "proved",
   "theorems": [
    "Secuer.BuildProps.C71_verify",
    "Secuer.BuildProps.C71_prove",
    "Secuer.BuildProps.C71_generate",
    "Secuer.BuildProps.C71_same",
    "Secuer.BuildProps.C71_verify_no_ub",
    "Secuer.BuildProps.C71_verdict",
    "Secuer.BuildProps.C71_sound",
    "Secuer.BuildProps.C71_prover_no_ub",
    "Secuer.BuildProps.C71_complete",
    "Secuer.BuildProps.C71_field"
   ],
   "note": "A call of an assembly routine is replaced by what it leaves in its output (C69, C70)."
  },
  {
   "property": "C72",
   "status": "proved",
   "theorems": [
    "Secuer.SageVerifyProps.C72_same_verdict",
    "Secuer.SageVerifyProps.C72_same_file"
   ],
   "note": "Sage's library is a parameter with a specification. Chains through j = 0 or 1728 are excluded."
  },
  {
   "property": "C73",
   "status": "proved",
   "theorems": [
    "Secuer.SageVerifyProps.C73_sage_sound",
    "Secuer.SageReadProps.C73_int",
    "Secuer.SageReadProps.C73_bytes",
    "Secuer.SageReadProps.C73_element"
   ],
   "note": "Sage's library is a parameter with a specification; set_order is taken to be exact."
  },
  {
   "property": "C74",
   "status": "proved",
   "theorems": [
    "Secuer.ForgeProps.C74_sage_forgery"
   ],
   "note": "Finding."
  },
  {
   "property": "C75",
   "status": "proved",
   "theorems": [
    "Secuer.SidhProps.C75_generators",
    "Secuer.SidhProps.C75_total",
    "Secuer.SidhProps.C75_public",
    "Secuer.SidhProps.C75_agree"
   ],
   "note": "Over GF(p^2); the words of the comparison in the validation are modelled."
  },
  {
   "property": "C76",
   "status": "proved",
   "theorems": [
    "Secuer.SidhProps.C76_kem"
   ],
   "note": "Finding: an honest ciphertext can be rejected, see C78."
  },
  {
   "property": "C77",
   "status": "proved",
   "theorems": [
    "Secuer.SidhProps.C77_accepted",
    "Secuer.SidhProps.C77_zero"
   ],
   "note": "Finding: nothing is checked about the third coordinate if it is zero."
  },
  {
   "property": "C78",
   "status": "proved",
   "theorems": [
    "Secuer.SidhProps.C78_confused",
    "Secuer.SidhProps.same_iff"
   ],
   "note": "Finding."
  },
  {
   "property": "C79",
   "status": "proved",
   "theorems": [
    "Secuer.SidhProps.C79_order",
    "Secuer.SidhProps.C79_points"
   ],
   "note": "For 610 a second number of points is not excluded by what is validated; that such a curve exists is not claimed."
  },
  {
   "property": "C80",
   "status": "proved",
   "theorems": [
    "Secuer.ProtocolProps.C80_knowledge"
   ],
   "note": "The output of the XOF on the input of the challenge is the variable that is counted over; the other hash values are fixed."
  },
  {
   "property": "C81",
   "status": "proved",
   "theorems": [
    "Secuer.WSidhProps.C81_words",
    "Secuer.WSidhProps.C81_total",
    "Secuer.WSidhProps.C81_agree",
    "Secuer.WSidhProps.C81_accepted"
   ],
   "note": "x86-64 build with _MULX_ and _ADX_; a call of an assembly routine is replaced by what it leaves in its output (C69, C70)."
  },
  {
   "property": "C82",
   "status": "proved",
   "theorems": [
    "Secuer.WSidhProps.C82_words",
    "Secuer.WSidhProps.C82_kem"
   ],
   "note": "As C81; randombytes delivers its argument."
  },
  {
   "property": "C83",
   "status": "proved",
   "theorems": [
    "Secuer.StatProps.C83_script",
    "Secuer.StatProps.C83_reps"
   ],
   "note": "The script computes in double precision; the model in the reals."
  },
  {
   "property": "C84",
   "status": "proved",
   "theorems": [
    "Secuer.StatProps.C84_bound",
    "Secuer.StatProps.C84_height"
   ],
   "note": "Finding. That the bound of the script holds for the statistical distance is not proved here; it is the one the parameters were derived from."
  },
  {
   "property": "C85",
   "status": "proved",
   "theorems": [
    "Secuer.Arm.C85_mp_add",
    "Secuer.Arm.C85_fpadd",
    "Secuer.Arm.C85_fpsub",
    "Secuer.Arm.C85_sub",
    "Secuer.Arm.C85_rdc",
    "Secuer.Arm.C85_double",
    "Secuer.Arm.C85_mul",
    "Secuer.Arm.C85_calls"
   ],
   "note": "ARM64 build on Linux or macOS; instruction semantics as in Arm/Model.lean. mul of p503 and p751: C87, C88."
  },
  {
   "property": "C86",
   "status": "proved",
   "theorems": [
    "Secuer.ArmProps.C86_verify",
    "Secuer.ArmProps.C86_prove",
    "Secuer.ArmProps.C86_generate",
    "Secuer.ArmProps.C86_same",
    "Secuer.ArmProps.C86_verdict",
    "Secuer.ArmProps.C86_sidh"
   ],
   "note": "A call of an assembly function is replaced by what it leaves in its output (C85). False for p503 and p751 at the level of the field arithmetic (C87, C88)."
  },
  {
   "property": "C87",
   "status": "proved",
   "theorems": [
    "Secuer.Arm.C87_exact",
    "Secuer.Arm.C87_small",
    "Secuer.Arm.C87_wrong"
   ],
   "note": "Finding."
  },
  {
   "property": "C88",
   "status": "proved",
   "theorems": [
    "Secuer.Arm.C88_exact",
    "Secuer.Arm.C88_small",
    "Secuer.Arm.C88_wrong"
   ],
   "note": "Finding."
  },
  {
   "property": "C89",
   "status": "proved",
   "theorems": [
    "Secuer.Arm.C89_x18",
    "Secuer.Arm.C89_changed"
   ],
   "note": "Finding. That x18 is reserved is a fact about the platform, not part of the model."
  },
  {
   "property": "C90",
   "status": "proved",
   "theorems": [
    "Secuer.Arm.C90_add610x2",
    "Secuer.Arm.C90_wrong"
   ],
   "note": "Finding; dead code."
  },
  {
   "property": "C91",
   "status": "proved",
   "theorems": [
    "Secuer.X64.C91_x64",
    "Secuer.Arm.C91_arm"
   ],
   "note": "That the instructions themselves take a time independent of their operands is a matter of the processor."
  },
  {
   "property": "C92",
   "status": "proved",
   "theorems": [
    "Secuer.Word32Props.C92_memory",
    "Secuer.Word32Props.C92_linear",
    "Secuer.Word32Props.C92_mult",
    "Secuer.Word32Props.C92_bytes",
    "Secuer.Word32Props.C92_ladder",
    "Secuer.Word32Props.C92_ladder3pt"
   ],
   "note": "Little-endian machine; portable C, no compiler effects."
  },
  {
   "property": "C93",
   "status": "proved",
   "theorems": [
    "Secuer.Word32Props.C93_verify",
    "Secuer.Word32Props.C93_prove",
    "Secuer.Word32Props.C93_generate",
    "Secuer.Word32Props.C93_verdict",
    "Secuer.Word32Props.C93_agree",
    "Secuer.Word32Props.C93_prover_no_ub",
    "Secuer.Word32Props.C93_complete",
    "Secuer.Word32Props.C93_sidh"
   ],
   "note": "The functions above the field arithmetic are those of WCurve and WProtocol with the 32-bit field functions put in; see DESIGN.md."
  },
  {
   "property": "C94",
   "status": "proved",
   "theorems": [
    "Secuer.Word32Props.C94_fprand",
    "Secuer.Word32Props.C94_range",
    "Secuer.Word32Props.C94_rhs610",
    "Secuer.Word32Props.C94_accept751",
    "Secuer.Word32Props.C94_sqr",
    "Secuer.Word32Props.C94_wrong751"
   ],
   "note": "Finding. How often the wrong results occur is not part of the theorems."
  },
  {
   "property": "C95",
   "status": "proved",
   "theorems": [
    "Secuer.MemProps.C95_field",
    "Secuer.MemProps.C95_xDBLe",
    "Secuer.MemProps.C95_xDBLe_inplace",
    "Secuer.MemProps.C95_xTPLe_inplace",
    "Secuer.MemProps.C95_evalIso_inplace",
    "Secuer.MemProps.C95_ladder",
    "Secuer.MemProps.C95_overlap",
    "Secuer.MemProps.C95_mul_overlap",
    "Secuer.CMem.xDBLM_effect",
    "Secuer.CMem.xDBLM_effect_inplace",
    "Secuer.CMem.get2isogM_effect",
    "Secuer.CMem.eval2isogM_effect",
    "Secuer.CMem.get4isogM_effect",
    "Secuer.CMem.eval4isogM_effect",
    "Secuer.CMem.xTPLM_effect",
    "Secuer.CMem.xTPLM_effect_inplace",
    "Secuer.CMem.get3isogM_effect",
    "Secuer.CMem.eval3isogM_effect",
    "Secuer.CMem.inv3wayM_effect",
    "Secuer.CMem.getAM_effect",
    "Secuer.CMem.jInvM_effect",
    "Secuer.CMem.jInvM_effect_inplace",
    "Secuer.CMem.xDBLADDM_effect",
    "Secuer.CMem.xTPLfastM_effect",
    "Secuer.CMem.xTPLfastM_effect_inplace",
    "Secuer.CMem.xDBLeM_effect",
    "Secuer.CMem.xTPLeM_effect",
    "Secuer.CMem.xTPLefastM_effect",
    "Secuer.CMem.xTPLefastM_effect_inplace",
    "Secuer.CMem.swapM_effect",
    "Secuer.CMem.ladderM_effect",
    "Secuer.CMem.ladder3ptM_effect",
    "Secuer.CMem.divM_effect",
    "Secuer.CMem.divM_effect_inplace",
    "Secuer.CMem.acToAac24M_effect",
    "Secuer.CMem.acToAc24M_effect",
    "Secuer.CMem.acToAa24M_effect",
    "Secuer.CMem.ac24ToAcM_effect",
    "Secuer.CMem.aa24ToAcM_effect",
    "Secuer.CMem.evalIsoM_effect"
   ],
   "note": "Portable build. Stack without limit that grows upwards; scalar locals and constant tables are not in memory."
  },
  {
   "property": "C96",
   "status": "proved",
   "theorems": [
    "Secuer.MemProps.C96_equal",
    "Secuer.MemProps.C96_iszero",
    "Secuer.MemProps.C96_sqrt",
    "Secuer.MemProps.C96_sqrt_known",
    "Secuer.MemProps.C96_cmov",
    "Secuer.MemProps.C96_canonical",
    "Secuer.MemProps.C96_canonical_ub",
    "Secuer.MemProps.C96_change",
    "Secuer.CMem.solveQuadraticM_effect",
    "Secuer.CMem.modelAtM_effect",
    "Secuer.CMem.modelsAtM_effect",
    "Secuer.CMem.allModelsM_effect",
    "Secuer.CMem.selectStepM_effect"
   ],
   "note": "Portable build; as C95. NDEBUG: assertions compiled out."
  },
  {
   "property": "C97",
   "status": "proved",
   "theorems": [
    "Secuer.MemProps.C97_A_accepts",
    "Secuer.MemProps.C97_A_rejects",
    "Secuer.MemProps.C97_B_accepts",
    "Secuer.MemProps.C97_B_rejects",
    "Secuer.MemProps.C97_random",
    "Secuer.CMem.stratRowsM_rel",
    "Secuer.CMem.isogenyAM_spec",
    "Secuer.CMem.isogenyBM_spec",
    "Secuer.CMem.randomPointM_spec",
    "Secuer.CMem.randomPointWithOrderM_spec",
    "Secuer.CMem.projEqualM_spec"
   ],
   "note": "Portable build; as C95. The bytes of randombytes are given by a tape; NDEBUG. The indices kept in pts_index and the strategy tables are not in memory."
  },
  {
   "property": "C98",
   "status": "proved",
   "theorems": [
    "Secuer.MemProps.C98_decode",
    "Secuer.MemProps.C98_encode",
    "Secuer.MemProps.C98_roundtrip",
    "Secuer.MemProps.C98_check",
    "Secuer.MemProps.C98_chain_A",
    "Secuer.MemProps.C98_chain_B",
    "Secuer.CMem.fp2decodeM_effect",
    "Secuer.CMem.fp2encodeM_spec",
    "Secuer.CMem.checkCurveM_spec",
    "Secuer.CMem.unpackChainAM_spec",
    "Secuer.CMem.unpackChainBM_spec"
   ],
   "note": "Portable build, little-endian; as C97. The numbers h of points found so far in Check_Curve are not in memory. The width and height are parameters."
  },
  {
   "property": "C99",
   "status": "proved",
   "theorems": [
    "Secuer.MemProps.C99_response",
    "Secuer.MemProps.C99_verify",
    "Secuer.MemProps.C99_sound",
    "Secuer.CMem.unpackResponseM_f",
    "Secuer.CMem.challengeMM_sim",
    "Secuer.CMem.verifyLoopM_f",
    "Secuer.CMem.verifyM_f"
   ],
   "note": "Portable build without THREADING, little-endian. The state of SHAKE256 is not in memory: hash_hiding and Challenge pass the bytes in memory to the model of C13/C14 and store its output. fuel bounds the number of blocks that Challenge squeezes; runs that need more count as not returning."
  },
  {
   "property": "C100",
   "status": "proved",
   "theorems": [
    "Secuer.MemProps.C100_generate",
    "Secuer.MemProps.C100_refines",
    "Secuer.CMem.randomPointABM_spec",
    "Secuer.CMem.randomChainAM_spec",
    "Secuer.CMem.randomChainBM_spec",
    "Secuer.CMem.fp2divEncM_spec",
    "Secuer.CMem.generateM_f"
   ],
   "note": "Portable build, little-endian; as C98. NDEBUG."
  },
  {
   "property": "C101",
   "status": "proved",
   "theorems": [
    "Secuer.MemProps.C101_generated",
    "Secuer.MemProps.C101_prove",
    "Secuer.MemProps.C101_refines",
    "Secuer.MemProps.C101_complete",
    "Secuer.MemProps.C101_malloc",
    "Secuer.CMem.gridLoopM_spec",
    "Secuer.CMem.instanceMM_f",
    "Secuer.CMem.packResponseM_f",
    "Secuer.CMem.packAllM_f",
    "Secuer.CMem.proveM_f"
   ],
   "note": "Portable build, little-endian; as C98. NDEBUG. free is not modelled."
  },
  {
   "property": "C102",
   "status": "proved",
   "theorems": [
    "Secuer.MemProps.C102_test",
    "Secuer.MemProps.C102_bench",
    "Secuer.MemProps.C102_main",
    "Secuer.MemProps.C102_progress",
    "Secuer.MemProps.C102_progress_end",
    "Secuer.MemProps.C102_progress_edge"
   ],
   "note": "Portable build without THREADING, little-endian; as C99 and C101. What the program prints (except the bar) and the clocks are not modelled."
  },
  {
   "property": "C103",
   "status": "proved",
   "theorems": [
    "Secuer.MemProps.C103_test",
    "Secuer.MemProps.C103_flip",
    "Secuer.MemProps.C103_flip434",
    "Secuer.MemProps.C103_flip503",
    "Secuer.MemProps.C103_flip610",
    "Secuer.MemProps.C103_flip751",
    "Secuer.MemProps.flip_core"
   ],
   "note": "As C102. That the exceptions are unlikely is not part of the theorems: it rests on properties of SHAKE256. The opened curves are named only up to existence; the strings and the commitments are those of the two proofs."
  },
  {
   "property": "C104",
   "status": "proved",
   "theorems": [
    "Secuer.MemProps.C104_verify",
    "Secuer.MemProps.C104_prove",
    "Secuer.MemProps.C104_pipeline",
    "Secuer.MemProps.storeProof_f"
   ],
   "note": "Portable build without THREADING, little-endian; as C99-C101. Standard input and output are those of C54 and C55. Parse reads all of its input before it stores anything in the model, so what the proof structure contains after Parse has failed is not described; neither tool uses it then."
  },
  {
   "property": "C105",
   "status": "proved",
   "theorems": [
    "Secuer.MemProps.C105_verify",
    "Secuer.MemProps.C105_prove",
    "Secuer.MemProps.C105_test",
    "Secuer.MemProps.C105_free"
   ],
   "note": "Portable build without THREADING, little-endian; as C101, C102, C104. free of an address that is not that of an allocated block is undefined behaviour in the model. When the array in Prove cannot be allocated the process aborts (fail) and nothing is freed; that a program uses a block after it has freed it is excluded by the model only for what the functions read and write through prf and inst before the call of free, which is the last call in each function. Blocks of stdio are not modelled."
  }
 ]
}
