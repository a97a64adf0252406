{
 "claims": [
  {
   "property": "C01",
   "status": "proved",
   "theorems": [
    "real_full_roundtrip",
    "keysOf_generated",
    "full_roundtrip"
   ],
   "note": "With the models of the component code (Real/). Different runs may use different fuel."
  },
  {
   "property": "C02",
   "status": "proved",
   "theorems": [
    "real_full_open_roundtrip",
    "full_open_roundtrip"
   ],
   "note": "With the models of the component code (Real/). Different runs may use different fuel."
  },
  {
   "property": "C03",
   "status": "proved",
   "theorems": [
    "real_compact_roundtrip",
    "compact_roundtrip"
   ],
   "note": "With the models of the component code (Real/). Different runs may use different fuel."
  },
  {
   "property": "C04",
   "status": "proved",
   "theorems": [
    "real_compact_open_roundtrip",
    "compact_open_roundtrip"
   ],
   "note": "With the models of the component code (Real/). Different runs may use different fuel."
  },
  {
   "property": "C05",
   "status": "proved",
   "theorems": [
    "full_sign_wire_format"
   ],
   "note": " Stated for every component library P that meets the named contracts (Spec.lean); real_sized, real_edShape, real_keyShape, real_spxDraw, real_correct and real_noUB prove the contracts for the component code."
  },
  {
   "property": "C06",
   "status": "proved",
   "theorems": [
    "compact_sign_wire_format"
   ],
   "note": " Stated for every component library P that meets the named contracts (Spec.lean); real_sized, real_edShape, real_keyShape, real_spxDraw, real_correct and real_noUB prove the contracts for the component code."
  },
  {
   "property": "C07",
   "status": "proved",
   "theorems": [
    "full_verify_iff",
    "full_open_iff"
   ],
   "note": " Stated for every component library P that meets the named contracts (Spec.lean); real_sized, real_edShape, real_keyShape, real_spxDraw, real_correct and real_noUB prove the contracts for the component code."
  },
  {
   "property": "C08",
   "status": "proved",
   "theorems": [
    "compact_verify_iff",
    "compact_open_iff"
   ],
   "note": " Stated for every component library P that meets the named contracts (Spec.lean); real_sized, real_edShape, real_keyShape, real_spxDraw, real_correct and real_noUB prove the contracts for the component code."
  },
  {
   "property": "C09",
   "status": "proved",
   "theorems": [
    "modes_exclusive_open",
    "modes_exclusive_verify",
    "modes_exclusive_cross"
   ],
   "note": " Stated for every component library P that meets the named contracts (Spec.lean); real_sized, real_edShape, real_keyShape, real_spxDraw, real_correct and real_noUB prove the contracts for the component code."
  },
  {
   "property": "C10",
   "status": "proved",
   "theorems": [
    "full_one_message",
    "compact_one_message"
   ],
   "note": " Stated for every component library P that meets the named contracts (Spec.lean); real_sized, real_edShape, real_keyShape, real_spxDraw, real_correct and real_noUB prove the contracts for the component code."
  },
  {
   "property": "C11",
   "status": "proved",
   "theorems": [
    "invalid_arguments",
    "verify_bad_length"
   ],
   "note": "No contract needed."
  },
  {
   "property": "C12",
   "status": "proved",
   "theorems": [
    "full_sign_failure_clean",
    "compact_sign_failure_clean",
    "full_open_failure_clean",
    "compact_open_failure_clean",
    "verify_clean"
   ],
   "note": " Stated for every component library P that meets the named contracts (Spec.lean); real_sized, real_edShape, real_keyShape, real_spxDraw, real_correct and real_noUB prove the contracts for the component code."
  },
  {
   "property": "C13",
   "status": "proved",
   "theorems": [
    "footprint",
    "real_safe",
    "full_sign_safe",
    "compact_sign_safe",
    "open_safe",
    "verify_safe",
    "keypair_safe",
    "expander_safe",
    "dilithium_verify_safe"
   ],
   "note": "real_safe is about the code of the components, through real_noUB."
  },
  {
   "property": "C14",
   "status": "proved",
   "theorems": [
    "keypair_layout"
   ],
   "note": " Stated for every component library P that meets the named contracts (Spec.lean); real_sized, real_edShape, real_keyShape, real_spxDraw, real_correct and real_noUB prove the contracts for the component code."
  },
  {
   "property": "C15",
   "status": "proved",
   "theorems": [
    "keypairSeed_pure",
    "keypairSeed_no_randomness",
    "keypair_eq_keypairSeed"
   ],
   "note": " Stated for every component library P that meets the named contracts (Spec.lean); real_sized, real_edShape, real_keyShape, real_spxDraw, real_correct and real_noUB prove the contracts for the component code."
  },
  {
   "property": "C16",
   "status": "proved",
   "theorems": [
    "rng_failure_minus_one",
    "rng_failure_compact",
    "rng_failure_full",
    "real_full_sign"
   ],
   "note": " Stated for every component library P that meets the named contracts (Spec.lean); real_sized, real_edShape, real_keyShape, real_spxDraw, real_correct and real_noUB prove the contracts for the component code. real_full_sign gives the code -4 for the components of the repository."
  },
  {
   "property": "C17",
   "status": "partial",
   "theorems": [
    "expander_pure_partial",
    "expander_ignores_odd_bytes"
   ],
   "note": "The dependence on all seed bytes is false of the code: expander_ignores_odd_bytes is the negation."
  },
  {
   "property": "C18",
   "status": "proved",
   "theorems": [
    "real_expander",
    "expander_structure"
   ],
   "note": "With the models of the component code (Real/). Different runs may use different fuel."
  },
  {
   "property": "C19",
   "status": "proved",
   "theorems": [
    "compact_input_injective",
    "compact_binding"
   ],
   "note": " Stated for every component library P that meets the named contracts (Spec.lean); real_sized, real_edShape, real_keyShape, real_spxDraw, real_correct and real_noUB prove the contracts for the component code."
  },
  {
   "property": "C20",
   "status": "partial",
   "theorems": [
    "cross_mode_repackaging",
    "mode_separation_partial"
   ],
   "note": "The separation is false of the code: cross_mode_repackaging is the attack."
  },
  {
   "property": "C21",
   "status": "partial",
   "theorems": [
    "ed_malleable",
    "hybrid_malleable",
    "real_malleable",
    "hybrid_full_malleable_partial",
    "hybrid_compact_malleable_partial"
   ],
   "note": "False of the code: the first three theorems are the negation, for every accepted signature in both modes. The _partial theorems say what holds when S is below L and the first 32 bytes of the parts (and the nonce) stay."
  },
  {
   "property": "C22",
   "status": "proved",
   "theorems": [
    "dilithium_verify_iff",
    "dilithium_strip",
    "real_dilithium_verify",
    "real_dilithium_strip"
   ],
   "note": ""
  },
  {
   "property": "C23",
   "status": "partial",
   "theorems": [
    "full_sign_overlap",
    "compact_sign_overlap_corrupts",
    "compact_sign_overlap_rejected",
    "compact_sign_overlap_partial"
   ],
   "note": "False for compact mode with overlapping buffers: the second theorem is the witness. The partial theorem holds whenever the message lies apart from the first 2526 bytes of the output; C104 says what the result is otherwise."
  },
  {
   "property": "C24",
   "status": "proved",
   "theorems": [
    "history_draws",
    "history_nonce"
   ],
   "note": " Stated for every component library P that meets the named contracts (Spec.lean); real_sized, real_edShape, real_keyShape, real_spxDraw, real_correct and real_noUB prove the contracts for the component code."
  },
  {
   "property": "C25",
   "status": "proved",
   "theorems": [
    "keccakF1600_fips202"
   ],
   "note": "Against the bit-level specification in Keccak/Spec.lean."
  },
  {
   "property": "C26",
   "status": "proved",
   "theorems": [
    "hash_functions_fips202"
   ],
   "note": ""
  },
  {
   "property": "C27",
   "status": "proved",
   "theorems": [
    "shake_incremental",
    "sha3_incremental"
   ],
   "note": ""
  },
  {
   "property": "C28",
   "status": "proved",
   "theorems": [
    "shake_incremental",
    "shake_blocks"
   ],
   "note": ""
  },
  {
   "property": "C29",
   "status": "proved",
   "theorems": [
    "seedexpander_wrapper_spec",
    "seedexpander_prefix"
   ],
   "note": ""
  },
  {
   "property": "C30",
   "status": "proved",
   "theorems": [
    "randombytes_fills",
    "randombytes_ends",
    "delivers_or_breaks"
   ],
   "note": "For every kernel that does not write more than it was asked for."
  },
  {
   "property": "C31",
   "status": "proved",
   "theorems": [
    "dil_round_trip",
    "dil_scheme_correct"
   ],
   "note": ""
  },
  {
   "property": "C32",
   "status": "proved",
   "theorems": [
    "sig_decode_spec",
    "sig_decode_injective",
    "sig_encode_decode",
    "sig_hint_bytes"
   ],
   "note": ""
  },
  {
   "property": "C33",
   "status": "proved",
   "theorems": [
    "poly_encodings_round_trip",
    "key_encodings_round_trip",
    "pk_decode_encode"
   ],
   "note": ""
  },
  {
   "property": "C34",
   "status": "partial",
   "theorems": [
    "reductions_partial",
    "montgomery_reduce_documented_range_false",
    "reduce32_documented_range_false",
    "reduce32_domain_sharp"
   ],
   "note": "False at one end point of two documented ranges (witnesses given); everything else is proved."
  },
  {
   "property": "C35",
   "status": "proved",
   "theorems": [
    "ntt_multiplication",
    "ntt_spec"
   ],
   "note": ""
  },
  {
   "property": "C36",
   "status": "proved",
   "theorems": [
    "rounding_spec",
    "use_hint_make_hint",
    "use_hint_fips",
    "make_hint_fips"
   ],
   "note": ""
  },
  {
   "property": "C37",
   "status": "proved",
   "theorems": [
    "sampler_ranges"
   ],
   "note": ""
  },
  {
   "property": "C38",
   "status": "proved",
   "theorems": [
    "released_signature_bounds"
   ],
   "note": ""
  },
  {
   "property": "C39",
   "status": "proved",
   "theorems": [
    "verify_safe_on_any_input",
    "verify_all_ones"
   ],
   "note": ""
  },
  {
   "property": "C40",
   "status": "partial",
   "theorems": [
    "dil_attached_sign",
    "dil_open_partial",
    "dil_open_failure_not_cleared",
    "dil_attached_round_trip"
   ],
   "note": "The failure clause is false of the code (witness); dil_open_partial states what it does instead."
  },
  {
   "property": "C41",
   "status": "proved",
   "theorems": [
    "masking_nonces_distinct",
    "masking_nonces_wrap",
    "signing_ends_early_or_never"
   ],
   "note": "For every H128, H256 that are SHAKE128 and SHAKE256 of FIPS 202 (isShake128_S128, isShake256_S256)."
  },
  {
   "property": "C42",
   "status": "proved",
   "theorems": [
    "spx_roundtrip",
    "shake256F_spec"
   ],
   "note": "For every hash function with outputs of the requested length; shake256F_spec shows that the SHAKE256 code is one and equals FIPS 202."
  },
  {
   "property": "C43",
   "status": "proved",
   "theorems": [
    "treehash_merkle"
   ],
   "note": "treehashx1 and compute_root, every height below 32 and every leaf callback. utils.c:treehash is dead code and not modelled."
  },
  {
   "property": "C44",
   "status": "proved",
   "theorems": [
    "wots_domination_free"
   ],
   "note": ""
  },
  {
   "property": "C45",
   "status": "proved",
   "theorems": [
    "fors_indices",
    "hash_message_split"
   ],
   "note": ""
  },
  {
   "property": "C46",
   "status": "proved",
   "theorems": [
    "address_injective",
    "address_setters"
   ],
   "note": ""
  },
  {
   "property": "C47",
   "status": "proved",
   "theorems": [
    "spx_keygen_pure"
   ],
   "note": "For every hash function with outputs of the requested length; shake256F_spec shows that the SHAKE256 code is one and equals FIPS 202."
  },
  {
   "property": "C48",
   "status": "proved",
   "theorems": [
    "spx_verify_safe"
   ],
   "note": "For every hash function with outputs of the requested length; shake256F_spec shows that the SHAKE256 code is one and equals FIPS 202."
  },
  {
   "property": "C49",
   "status": "partial",
   "theorems": [
    "spx_attached_sign_ignores_failure",
    "spx_rng_failure_partial"
   ],
   "note": "False of the code: the first theorem is the negation for every input; the second says what does report the failure."
  },
  {
   "property": "C50",
   "status": "proved",
   "theorems": [
    "ed_round_trip",
    "ed_sign_spec",
    "ed_keypair_spec",
    "ed_keypair_random"
   ],
   "note": "Signed messages below 2^31 bytes, as the quantifier says; longer ones are the witness against C56."
  },
  {
   "property": "C51",
   "status": "proved",
   "theorems": [
    "ed_open_iff"
   ],
   "note": "Signed messages below 2^31 bytes, as the quantifier says; longer ones are the witness against C56."
  },
  {
   "property": "C52",
   "status": "proved",
   "theorems": [
    "field_add_sub",
    "field_mul_pow",
    "field_pack",
    "field_unpack"
   ],
   "note": ""
  },
  {
   "property": "C53",
   "status": "proved",
   "theorems": [
    "scalar_reduction",
    "scalar_reduce"
   ],
   "note": "Signing and verification stay within the limb bound 2^22 (mulAdd_ok, reduce_ok)."
  },
  {
   "property": "C54",
   "status": "proved",
   "theorems": [
    "sha512_spec"
   ],
   "note": ""
  },
  {
   "property": "C55",
   "status": "proved",
   "theorems": [
    "verify_16_32"
   ],
   "note": ""
  },
  {
   "property": "C56",
   "status": "partial",
   "theorems": [
    "ed_open_failure_partial",
    "ed_open_long_ub",
    "ed_open_tail_kept"
   ],
   "note": "False from 2^31 bytes on (int counter); the partial theorem covers every shorter input. ed_open_tail_kept: 64 bytes of a rejected message stay behind in the buffer."
  },
  {
   "property": "C57",
   "status": "proved",
   "theorems": [
    "curve_operations",
    "curve_addition_law"
   ],
   "note": ""
  },
  {
   "property": "C58",
   "status": "proved",
   "theorems": [
    "seedexpander_two_calls"
   ],
   "note": "States exactly which stream bytes are lost between calls."
  },
  {
   "property": "C59",
   "status": "proved",
   "theorems": [
    "spx_keygen_spec",
    "spx_sign_spec",
    "spx_verify_spec",
    "shake256F_spec"
   ],
   "note": "For every hash function with outputs of the requested length; shake256F_spec shows that the SHAKE256 code is one and equals FIPS 202."
  },
  {
   "property": "C60",
   "status": "proved",
   "theorems": [
    "spx_open_spec",
    "spx_attached_roundtrip"
   ],
   "note": "For every hash function with outputs of the requested length; shake256F_spec shows that the SHAKE256 code is one and equals FIPS 202."
  },
  {
   "property": "C61",
   "status": "proved",
   "theorems": [
    "dil_keygen_spec",
    "dil_sign_spec",
    "dil_verify_spec",
    "isShake128_S128",
    "isShake256_S256"
   ],
   "note": "For every H128, H256 that are SHAKE128 and SHAKE256 of FIPS 202 (isShake128_S128, isShake256_S256)."
  },
  {
   "property": "C62",
   "status": "proved",
   "theorems": [
    "dil_deterministic",
    "dil_keygen_runs_agree",
    "dil_sign_runs_agree"
   ],
   "note": ""
  },
  {
   "property": "C63",
   "status": "proved",
   "theorems": [
    "dil_attached_in_place"
   ],
   "note": ""
  },
  {
   "property": "C64",
   "status": "proved",
   "theorems": [
    "dil_keypair_spec"
   ],
   "note": "For every H128, H256 that are SHAKE128 and SHAKE256 of FIPS 202 (isShake128_S128, isShake256_S256)."
  },
  {
   "property": "C65",
   "status": "proved",
   "theorems": [
    "urandom_fills",
    "urandom_eof_diverges"
   ],
   "note": ""
  },
  {
   "property": "C66",
   "status": "proved",
   "theorems": [
    "real_full_verify",
    "real_compact_verify",
    "real_full_open",
    "real_compact_open"
   ],
   "note": "With the models of the component code (Real/). Different runs may use different fuel."
  },
  {
   "property": "C67",
   "status": "proved",
   "theorems": [
    "real_keypair",
    "real_keypair_unseeded"
   ],
   "note": "With the models of the component code (Real/). Different runs may use different fuel."
  },
  {
   "property": "C68",
   "status": "proved",
   "theorems": [
    "real_full_sign",
    "real_compact_sign"
   ],
   "note": "With the models of the component code (Real/). Different runs may use different fuel."
  },
  {
   "property": "C69",
   "status": "proved",
   "theorems": [
    "full_scheme_correct",
    "compact_scheme_correct"
   ],
   "note": "For every H128, H256 that are SHAKE128 and SHAKE256 of FIPS 202 (isShake128_S128, isShake256_S256)."
  },
  {
   "property": "C70",
   "status": "proved",
   "theorems": [
    "nacl_salsa20_core",
    "nacl_hsalsa20_core"
   ],
   "note": "for every width of unsigned long from 32 bits on"
  },
  {
   "property": "C71",
   "status": "proved",
   "theorems": [
    "nacl_stream",
    "nacl_stream_xor",
    "nacl_stream_involution"
   ],
   "note": "for every width of unsigned long from 32 bits on"
  },
  {
   "property": "C72",
   "status": "proved",
   "theorems": [
    "nacl_poly1305",
    "nacl_poly1305_verify"
   ],
   "note": "for every width of unsigned long from 32 bits on"
  },
  {
   "property": "C73",
   "status": "proved",
   "theorems": [
    "nacl_secretbox",
    "nacl_secretbox_short"
   ],
   "note": "for every width of unsigned long from 32 bits on"
  },
  {
   "property": "C74",
   "status": "proved",
   "theorems": [
    "nacl_secretbox_open",
    "nacl_secretbox_roundtrip"
   ],
   "note": "for every width of unsigned long from 32 bits on"
  },
  {
   "property": "C75",
   "status": "proved",
   "theorems": [
    "nacl_x25519",
    "nacl_x25519_point"
   ],
   "note": ""
  },
  {
   "property": "C76",
   "status": "proved",
   "theorems": [
    "nacl_dh_agreement"
   ],
   "note": ""
  },
  {
   "property": "C77",
   "status": "proved",
   "theorems": [
    "nacl_x25519_ignores"
   ],
   "note": ""
  },
  {
   "property": "C78",
   "status": "proved",
   "theorems": [
    "nacl_x25519_zero_iff",
    "nacl_x25519_low_order",
    "nacl_box_low_order"
   ],
   "note": "states a weakness of the code, see DESIGN.md section 4"
  },
  {
   "property": "C79",
   "status": "proved",
   "theorems": [
    "nacl_box_roundtrip"
   ],
   "note": "for every width of unsigned long from 32 bits on"
  },
  {
   "property": "C80",
   "status": "proved",
   "theorems": [
    "nacl_box_keypair"
   ],
   "note": ""
  },
  {
   "property": "C81",
   "status": "proved",
   "theorems": [
    "wasm_sign",
    "wasm_sign_size_t_overflow"
   ],
   "note": "states a defect of the code, see DESIGN.md section 4"
  },
  {
   "property": "C82",
   "status": "proved",
   "theorems": [
    "wasm_mem_alloc",
    "wasm_mem_free",
    "wasm_alloc_free"
   ],
   "note": ""
  },
  {
   "property": "C83",
   "status": "proved",
   "theorems": [
    "wasm_keypair",
    "wasm_expander",
    "wasm_session"
   ],
   "note": "With the models of the component code (Real/). Different runs may use different fuel."
  },
  {
   "property": "C84",
   "status": "proved",
   "theorems": [
    "wasm_seedexpander",
    "wasm_randombytes"
   ],
   "note": ""
  },
  {
   "property": "C85",
   "status": "proved",
   "theorems": [
    "ctx_shake",
    "ctx_seedexpander_wrapper",
    "ctx_sha3_session",
    "ctx_clone",
    "ctx_clone_plain",
    "ctx_separate_all",
    "ctx_release",
    "ctx_misuse"
   ],
   "note": ""
  },
  {
   "property": "C86",
   "status": "proved",
   "theorems": [
    "ctx_poly_uniform",
    "ctx_poly_uniform_eta",
    "ctx_poly_uniform_gamma1",
    "ctx_poly_challenge",
    "ctx_shake256Inc2",
    "ctx_keypair_seed",
    "ctx_signature",
    "ctx_verify",
    "ctx_gen_message_random",
    "ctx_hash_message",
    "ctx_prf_addr",
    "ctx_thash"
   ],
   "note": ""
  },
  {
   "property": "C87",
   "status": "proved",
   "theorems": [
    "entropy_wait",
    "urandom_entropy",
    "urandom_sound",
    "urandom_fclose_ub",
    "entropy_source"
   ],
   "note": "states defects of the code, see DESIGN.md section 4"
  },
  {
   "property": "C88",
   "status": "partial",
   "theorems": [
    "win32_fills_partial",
    "win32_truncates",
    "win32_not_random"
   ],
   "note": "false of the code for requests of 2^32 bytes or more (win32_not_random is the negation, win32_truncates says what happens instead); win32_fills_partial covers all requests below that"
  },
  {
   "property": "C89",
   "status": "proved",
   "theorems": [
    "arc4_fills",
    "nodejs_fills"
   ],
   "note": ""
  },
  {
   "property": "C90",
   "status": "proved",
   "theorems": [
    "session_uses",
    "full_forgery",
    "compact_forgery"
   ],
   "note": "An accepted buffer is taken apart into forgeries of the components; that forging a component is hard is not claimed."
  },
  {
   "property": "C91",
   "status": "proved",
   "theorems": [
    "ct_ed_keypair",
    "ct_ed_sign",
    "ct_sha512"
   ],
   "note": "control flow and memory addresses of the source; instruction timing and the compiler are outside the model"
  },
  {
   "property": "C92",
   "status": "proved",
   "theorems": [
    "ct_x25519",
    "ct_x25519_base",
    "ct_verify",
    "ct_stream",
    "ct_stream_xor",
    "ct_poly1305",
    "ct_poly1305_verify",
    "ct_secretbox",
    "ct_secretbox_open",
    "ct_box",
    "ct_box_open"
   ],
   "note": "as for C91"
  },
  {
   "property": "C93",
   "status": "proved",
   "theorems": [
    "ct_shake128",
    "ct_shake256",
    "ct_sha3",
    "ct_shake_incremental",
    "ct_sha3_incremental",
    "ct_seedexpander"
   ],
   "note": "as for C91"
  },
  {
   "property": "C94",
   "status": "proved",
   "theorems": [
    "ct_spx_keypair",
    "ct_spx_sign"
   ],
   "note": "as for C91; the trace of signing is stated as a function of public key, message and signature"
  },
  {
   "property": "C95",
   "status": "proved",
   "theorems": [
    "ct_dil_keypair",
    "ct_dil_chknorm",
    "ct_dil_sign",
    "ct_dil_sign_rejected"
   ],
   "note": "as for C91; the traces are stated as functions of the public values and of what the rejection samplers show"
  },
  {
   "property": "C96",
   "status": "proved",
   "theorems": [
    "spx_forgery",
    "forsPrfAdrs_iff",
    "verifyCalls_length",
    "spx_gives_out",
    "hybrid_spx_forgery"
   ],
   "note": "no cryptographic assumption: the theorem says what a forgery contains"
  },
  {
   "property": "C97",
   "status": "proved",
   "theorems": [
    "dil_accepted",
    "checked_unique",
    "dil_same_commitment",
    "dil_same_challenge"
   ],
   "note": "no cryptographic assumption: the theorems say what accepted signatures contain"
  },
  {
   "property": "C98",
   "status": "proved",
   "theorems": [
    "ed_order",
    "ed_accepted_iff",
    "ed_nonce_reuse",
    "ed_sign_nonce",
    "ed_key_scalar",
    "ed_key_hash"
   ],
   "note": ""
  },
  {
   "property": "C99",
   "status": "proved",
   "theorems": [
    "treehash_spec",
    "treehash_index"
   ],
   "note": "the second theorem is the overflow for indices outside the tree"
  },
  {
   "property": "C100",
   "status": "proved",
   "theorems": [
    "hybrid_full_accepted",
    "hybrid_compact_accepted",
    "hybrid_full_variants",
    "hybrid_compact_variants"
   ],
   "note": "no cryptographic assumption"
  },
  {
   "property": "C101",
   "status": "proved",
   "theorems": [
    "hybrid_full_binding",
    "hybrid_compact_binding",
    "hybrid_mode_binding"
   ],
   "note": "no cryptographic assumption; strengthens C19 and C20 for the component code"
  },
  {
   "property": "C102",
   "status": "proved",
   "theorems": [
    "ct_hybrid_expander",
    "ct_hybrid_keypair",
    "ct_hybrid_sign_full",
    "ct_hybrid_sign_compact"
   ],
   "note": "source-level accesses and branches; see the trusted base for what a compiler may change"
  },
  {
   "property": "C103",
   "status": "partial",
   "theorems": [
    "hybrid_full_owner_partial",
    "hybrid_compact_owner_partial",
    "hybrid_full_substitution",
    "hybrid_compact_substitution",
    "hybrid_owner_false"
   ],
   "note": "false of the code as a whole (hybrid_owner_false): the Ed25519 part of the key is not bound; the Dilithium part is, and the SPHINCS+ part in compact mode"
  },
  {
   "property": "C104",
   "status": "proved",
   "theorems": [
    "compact_open_overlap",
    "forward_spec",
    "compact_open_shifted",
    "compact_sign_overlap_exact",
    "expander_overlap",
    "full_open_iff"
   ],
   "note": " Stated for every component library P that meets the named contracts (Spec.lean); real_sized, real_edShape, real_keyShape, real_spxDraw, real_correct and real_noUB prove the contracts for the component code."
  },
  {
   "property": "C105",
   "status": "proved",
   "theorems": [
    "rejection_unbiased",
    "sampling_unbiased",
    "sampling_of_streams"
   ],
   "note": "counts of strings; that SHAKE output is random is not claimed"
  },
  {
   "property": "C106",
   "status": "proved",
   "theorems": [
    "dil_transcripts",
    "dil_secret_hidden",
    "dil_signature_simulated"
   ],
   "note": "counts of masking vectors for a fixed challenge; that the masks and the challenge look random is not claimed"
  },
  {
   "property": "C107",
   "status": "proved",
   "theorems": [
    "spx_digest_balanced",
    "ed_reduce_balanced",
    "ed_clamp_balanced"
   ],
   "note": "counts of strings; that the hash output is random is not claimed"
  },
  {
   "property": "C108",
   "status": "proved",
   "theorems": [
    "weak_key_compact",
    "weak_key_full",
    "weak_key_exists"
   ],
   "note": "the rejection loops that expand rho and the challenge are assumed to end, as for every verification; weak_key_exists gives one complete case"
  },
  {
   "property": "C109",
   "status": "proved",
   "theorems": [
    "poly1305_tag_keys",
    "poly1305_two_tags",
    "poly1305_two_accepted"
   ],
   "note": "counts of keys; that the key stream is random is not claimed"
  },
  {
   "property": "C110",
   "status": "proved",
   "theorems": [
    "keccakF1600_bijective",
    "absorb_inner_collision",
    "absorb_one_block",
    "seedexpander_init_states"
   ],
   "note": ""
  },
  {
   "property": "C111",
   "status": "proved",
   "theorems": [
    "ed_group",
    "ed_key_count",
    "ed_small_order_keys",
    "ed_generated_order",
    "ed_accepted_any_key"
   ],
   "note": ""
  },
  {
   "property": "C112",
   "status": "proved",
   "theorems": [
    "nacl_x25519_same",
    "nacl_public_key_same",
    "nacl_secret_key_count",
    "nacl_public_key_count"
   ],
   "note": ""
  },
  {
   "property": "C113",
   "status": "proved",
   "theorems": [
    "expanded_keys",
    "expanded_keys_same",
    "expanded_seed_count",
    "expanded_key_count"
   ],
   "note": ""
  },
  {
   "property": "C114",
   "status": "proved",
   "theorems": [
    "spx_keygen_contexts",
    "spx_sign_contexts",
    "spx_verify_contexts",
    "spx_verify_no_context",
    "spx_open_contexts",
    "dil_keygen_contexts",
    "dil_sign_contexts",
    "dil_verify_contexts"
   ],
   "note": ""
  },
  {
   "property": "C115",
   "status": "proved",
   "theorems": [
    "sha_collision",
    "sha_extension",
    "sha_rounds_bijective",
    "sha_fixed_point"
   ],
   "note": ""
  },
  {
   "property": "C116",
   "status": "proved",
   "theorems": [
    "salsa_rounds_bijective",
    "salsa_core_any_constants",
    "salsa_top_bits",
    "hsalsa_from_salsa"
   ],
   "note": ""
  },
  {
   "property": "C117",
   "status": "proved",
   "theorems": [
    "compact_key_use",
    "full_key_use",
    "compact_without_sphincs",
    "generated_compact_pair"
   ],
   "note": ""
  },
  {
   "property": "C118",
   "status": "proved",
   "theorems": [
    "Verif.Real.Heap.hybrid_keypair_seed_contexts",
    "Verif.Real.Heap.hybrid_keypair_contexts",
    "Verif.Real.Heap.hybrid_seed_expander_contexts",
    "Verif.Real.Heap.hybrid_sign_full_contexts",
    "Verif.Real.Heap.hybrid_open_full_contexts",
    "Verif.Real.Heap.hybrid_verify_full_contexts",
    "Verif.Real.Heap.hybrid_sign_compact_contexts",
    "Verif.Real.Heap.hybrid_open_compact_contexts",
    "Verif.Real.Heap.hybrid_verify_compact_contexts",
    "Verif.Real.Heap.hybrid_verify_dilithium_contexts"
   ],
   "note": "OnHeap: N the same for all heaps; exit(111) exactly if one of the N allocations fails; otherwise same result, heap unchanged."
  },
  {
   "property": "C119",
   "status": "proved",
   "theorems": [
    "full_repeated",
    "compact_repeated",
    "one_time_key_input",
    "full_shared_layers",
    "full_tail_values",
    "full_ends_collide",
    "full_shared_fors"
   ],
   "note": ""
  },
  {
   "property": "C120",
   "status": "proved",
   "theorems": [
    "changed_copy_reveals_scalar",
    "scalar_suffices",
    "changed_matrix_reveals_s1",
    "changed_root_reuses_nothing"
   ],
   "note": ""
  },
  {
   "property": "C121",
   "status": "proved",
   "theorems": [
    "spx_secrets_hidden",
    "spx_depth_pos"
   ],
   "note": ""
  },
  {
   "property": "C122",
   "status": "proved",
   "theorems": [
    "dil_masks_of_two_runs"
   ],
   "note": ""
  },
  {
   "property": "C123",
   "status": "proved",
   "theorems": [
    "concurrent_calls",
    "concurrent_calls_end",
    "concurrent_full_signers",
    "two_signers_demo"
   ],
   "note": ""
  },
  {
   "property": "C124",
   "status": "proved",
   "theorems": [
    "full_open_under_writers",
    "full_verify_under_writers"
   ],
   "note": ""
  },
  {
   "property": "C125",
   "status": "partial",
   "theorems": [
    "compact_open_under_writers_partial",
    "compact_verify_under_writers_partial",
    "compact_open_under_writers_false",
    "compact_verify_under_writers_false",
    "compact_open_swapped",
    "compact_verify_swapped"
   ],
   "note": "False of the code: compact mode reads the message from the signature buffer once for the hash and once more after the checks, so a thread that changes it in between makes open deliver, and verify accept, a message that was never checked. Proved: the negation with a concrete key, the attack for every valid signature, and what remains true under arbitrary writers."
  },
  {
   "property": "C126",
   "status": "partial",
   "theorems": [
    "compact_sign_under_writers_partial",
    "full_sign_under_writers_partial",
    "compact_sign_under_writers_false",
    "full_sign_under_writers_false",
    "compact_sign_other",
    "full_sign_other"
   ],
   "note": "False of the code: compact signing reads the message once for the hash and once more to put it into the signature, full signing reads it for each algorithm, so a thread that changes it in between makes a call return 0 with something that is no signature of any message. Proved: the negation in both modes with a concrete key, the attack for every message, replacement and key, and what remains true under arbitrary writers."
  },
  {
   "property": "C127",
   "status": "proved",
   "theorems": [
    "keypair_seed_under_writers",
    "keypair_under_writers",
    "expander_under_writers",
    "keypair_seed_torn",
    "torn_demo"
   ],
   "note": ""
  },
  {
   "property": "C128",
   "status": "partial",
   "theorems": [
    "verify_dilithium_reads_within_partial",
    "verify_dilithium_reads_within_false",
    "verify_dilithium_overread",
    "verify_dilithium_no_ub_partial",
    "verify_dilithium_slack_no_ub",
    "verify_dilithium_reads_bounded",
    "verify_dilithium_steps_alone",
    "other_calls_access_within"
   ],
   "note": "False of the code: the hint decoder checks a count byte of the caller's signature and reads it again as a loop bound, so another thread that changes it in between makes the call read behind the buffer. Proved: the negation, the attack for every suitable signature, the bound of 171 bytes under arbitrary writers, that nothing else is undefined then, and the claim when the four count bytes keep their values. Missing from the claim: writers that change these four bytes."
  },
  {
   "property": "C129",
   "status": "partial",
   "theorems": [
    "verify_dilithium_under_writers_partial",
    "verify_dilithium_under_writers_false",
    "verify_dilithium_accepts_malformed",
    "malformed_stays_invalid",
    "malformed_not_valid"
   ],
   "note": "False of the code: the hint decoder reads the last count again after the check, so another thread can make it accept a buffer that was never a signature. Proved: the negation, the attack for every valid signature, and the claim when the signature and the key keep their values (the message may change). Missing from the claim: writers that change the signature or the key."
  },
  {
   "property": "C130",
   "status": "proved",
   "theorems": [
    "verify_dilithium_equation",
    "equation_valid",
    "verify_dilithium_two_keys",
    "verify_dilithium_one_key_false"
   ],
   "note": ""
  },
  {
   "property": "C131",
   "status": "proved",
   "theorems": [
    "calls_end",
    "verify_dilithium_ends",
    "verify_dilithium_undisturbed",
    "verify_dilithium_shared",
    "calls_turn",
    "verify_dilithium_least"
   ],
   "note": ""
  }
 ]
}