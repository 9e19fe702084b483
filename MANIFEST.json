{
 "claims": [
  {
   "property": "C01",
   "status": "proved",
   "theorems": [
    "C01_xmss_str_to_oid",
    "C01_xmssmt_str_to_oid",
    "C01_xmss_parse_oid",
    "C01_xmssmt_parse_oid",
    "C01_name_describes_params",
    "C01_injective"
   ],
   "note": ""
  },
  {
   "property": "C02",
   "status": "proved",
   "theorems": [
    "C02_xmss_oids",
    "C02_xmssmt_oids",
    "C02_keypair_rejects",
    "C02_sign_open_reject"
   ],
   "note": ""
  },
  {
   "property": "C03",
   "status": "proved",
   "theorems": [
    "C03_sizes",
    "C03_len2_range",
    "C03_sk_bytes"
   ],
   "note": ""
  },
  {
   "property": "C04",
   "status": "proved",
   "theorems": [
    "C04_big_endian",
    "C04_round_trip",
    "C04_injective",
    "C04_read"
   ],
   "note": ""
  },
  {
   "property": "C05",
   "status": "proved",
   "theorems": [
    "C05_oid_in_keys",
    "C30_key_layout"
   ],
   "note": ""
  },
  {
   "property": "C06",
   "status": "proved",
   "theorems": [
    "C06_digits",
    "C06_base_w_in_bounds"
   ],
   "note": ""
  },
  {
   "property": "C07",
   "status": "partial",
   "theorems": [
    "C07_checksum_partial",
    "C07_fails_for_w256"
   ],
   "note": "Proved for w = 4 and w = 16 (every OID uses 16). For w = 256, which initialize_params accepts, the property is FALSE of the code and the counterexample is proved: the checksum shift drops bits."
  },
  {
   "property": "C08",
   "status": "proved",
   "theorems": [
    "C08_wots_round_trip",
    "C08_any_address"
   ],
   "note": ""
  },
  {
   "property": "C09",
   "status": "proved",
   "theorems": [
    "C09_wots_forgery"
   ],
   "note": ""
  },
  {
   "property": "C10",
   "status": "proved",
   "theorems": [
    "C10_address_separation",
    "C10_rfc_addresses"
   ],
   "note": ""
  },
  {
   "property": "C11",
   "status": "proved",
   "theorems": [
    "C11_role_separation",
    "C11_padding"
   ],
   "note": ""
  },
  {
   "property": "C12",
   "status": "proved",
   "theorems": [
    "C12_core_hash"
   ],
   "note": ""
  },
  {
   "property": "C13",
   "status": "proved",
   "theorems": [
    "C13_treehash",
    "C13_keygen"
   ],
   "note": ""
  },
  {
   "property": "C14",
   "status": "proved",
   "theorems": [
    "C14_ltree"
   ],
   "note": ""
  },
  {
   "property": "C15",
   "status": "proved",
   "theorems": [
    "C15_merkle_binding"
   ],
   "note": ""
  },
  {
   "property": "C16",
   "status": "proved",
   "theorems": [
    "C16_completeness"
   ],
   "note": ""
  },
  {
   "property": "C17",
   "status": "partial",
   "theorems": [
    "C17_last_signature_ignores_key",
    "C17_would_be_universal_forgery",
    "C17_fails"
   ],
   "note": "FALSE of the code. Proved: at index 2^h-1 sign deletes the key before using it, so it returns 0 with bytes that do not depend on the key (index bytes 0xFF); if such signatures verified, one fixed string would be accepted under every public key; and a concrete hash, key and all messages for which the last signature is rejected."
  },
  {
   "property": "C18",
   "status": "partial",
   "theorems": [
    "C18_indices_in_order_partial",
    "C18_no_index_reuse",
    "C19_fails_for_height_40"
   ],
   "note": "Proved for histories of any length for all OIDs except height 40, and for the first 2^h-1 signatures for all OIDs; FALSE for height 40, where call number 2^40 carries index 0 again (proved)."
  },
  {
   "property": "C19",
   "status": "partial",
   "theorems": [
    "C19_exhausted_partial",
    "C19_material_deleted",
    "C19_fails_for_height_40"
   ],
   "note": "Proved for all OIDs except height 40; key material is gone for all OIDs. FALSE for the height 40 sets: the 5-byte index wraps to 0 and signing continues with the zero key (proved)."
  },
  {
   "property": "C20",
   "status": "proved",
   "theorems": [
    "C20_sign_safe"
   ],
   "note": ""
  },
  {
   "property": "C21",
   "status": "partial",
   "theorems": [
    "C21_open_safe_partial",
    "C21_fails_for_short_input"
   ],
   "note": "Proved: safe iff smlen >= sig_bytes. FALSE below that: smlen - sig_bytes wraps and open reads and writes out of bounds for every shorter input (proved)."
  },
  {
   "property": "C22",
   "status": "proved",
   "theorems": [
    "C22_signature_format",
    "C27_deterministic"
   ],
   "note": ""
  },
  {
   "property": "C23",
   "status": "proved",
   "theorems": [
    "C23_sign_is_rfc",
    "C23_open_is_rfc"
   ],
   "note": ""
  },
  {
   "property": "C24",
   "status": "proved",
   "theorems": [
    "C24_open_output"
   ],
   "note": ""
  },
  {
   "property": "C25",
   "status": "partial",
   "theorems": [
    "C25_rejected_message_remains",
    "C25_fails",
    "C24_open_output"
   ],
   "note": "FALSE of the code: after every rejection the message (or its last sig_bytes bytes) is still in the caller's buffer at offset sig_bytes (proved). True part: the first mlen bytes are zero (C24)."
  },
  {
   "property": "C26",
   "status": "proved",
   "theorems": [
    "C26_only_index_changes",
    "C23_sign_is_rfc"
   ],
   "note": ""
  },
  {
   "property": "C27",
   "status": "proved",
   "theorems": [
    "C27_deterministic"
   ],
   "note": ""
  },
  {
   "property": "C28",
   "status": "proved",
   "theorems": [
    "C28_acceptance_binds",
    "C28_honest_case"
   ],
   "note": ""
  },
  {
   "property": "C29",
   "status": "partial",
   "theorems": [
    "C29_out_of_range_accepted",
    "C29_out_of_range_collision_partial"
   ],
   "note": "FALSE as stated: the verifier does not check the range, and for all seeds there are public keys under which every out-of-range index is accepted (proved). True part: under an honest key such an acceptance contains an explicit hash collision."
  },
  {
   "property": "C30",
   "status": "proved",
   "theorems": [
    "C30_key_layout",
    "C30_key_layout_fast"
   ],
   "note": ""
  },
  {
   "property": "C31",
   "status": "proved",
   "theorems": [
    "C31_state_roundtrip",
    "C31_key_is_state"
   ],
   "note": ""
  },
  {
   "property": "C32",
   "status": "proved",
   "theorems": [
    "C32_fast_xmss_equals_simple"
   ],
   "note": ""
  },
  {
   "property": "C33",
   "status": "partial",
   "theorems": [
    "C33_fast_xmssmt_equals_simple_partial",
    "C33_fails"
   ],
   "note": "Proved for every history of the OIDs with d <= h'/2+2 (20/2, 20/4, 40/2, 40/4, 60/3, 60/6), and for the first 2^20-1 signatures of 40/8 and 60/12.  FALSE for 40/8 and 60/12: the signature with index 2^20 contains a node that is whatever the secret key buffer held before key generation, so for some content it differs from that of the simple implementation whatever the messages (proved, C33_fails)."
  },
  {
   "property": "C34",
   "status": "partial",
   "theorems": [
    "C34_fast_xmss_safe",
    "C34_fast_xmssmt_safe_partial",
    "C34_fails"
   ],
   "note": "Proved for XMSS (all OIDs, all histories) and for XMSS^MT with d <= h'/2+2 (20/2, 20/4, 40/2, 40/4, 60/3, 60/6; histories of at most 2^40 calls at height 40) and the first 2^20-1 calls of 40/8 and 60/12.  FALSE for 40/8 and 60/12: histories of fewer than 2^20+2^18 calls are safe, and every longer one writes behind the node stack of a state (proved, C34_fails)."
  },
  {
   "property": "C35",
   "status": "partial",
   "theorems": [
    "C35_fast_xmss_work",
    "C35_fast_xmssmt_work_partial",
    "C35_fails",
    "C35_worst_call"
   ],
   "note": "Proved for XMSS and for XMSS^MT with d <= h'/2+1 (20/2, 40/2, 40/4, 60/3, 60/6).  FALSE for the 20/4, 40/8 and 60/12 sets: call 2^18 computes at least d+4 > d+2 leaves (proved, C35_fails); for these sets d+4 is the maximum over all calls and it is attained (C35_worst_call; for 40/8 and 60/12 the first 2^20-1 calls)."
  },
  {
   "property": "C36",
   "status": "partial",
   "theorems": [
    "C36_any_tradeoff_partial",
    "C36_wrong_auth_node",
    "C36_fails"
   ],
   "note": "Proved for every height >= 3 and every bds_k with bds_k <= 1 or tree_height - bds_k even.  False in general: for bds_k = h-1 the fifth signature has a wrong authentication node (all hashes); C36_fails gives a concrete instance; the exact set of correct parameters is C61."
  },
  {
   "property": "C37",
   "status": "proved",
   "theorems": [
    "C37_permutation"
   ],
   "note": ""
  },
  {
   "property": "C38",
   "status": "proved",
   "theorems": [
    "C38_shake128",
    "C38_shake256",
    "C38_bits_determine_bytes"
   ],
   "note": ""
  },
  {
   "property": "C39",
   "status": "proved",
   "theorems": [
    "C39_prefix",
    "C39_padding_injective",
    "C39_absorbs_blocks",
    "C39_block_length"
   ],
   "note": ""
  },
  {
   "property": "C40",
   "status": "proved",
   "theorems": [
    "C40_fills_buffer",
    "C40_returns",
    "C40_does_not_return_early"
   ],
   "note": ""
  },
  {
   "property": "C41",
   "status": "proved",
   "theorems": [
    "C41_updates_in_place",
    "C41_history"
   ],
   "note": ""
  },
  {
   "property": "C42",
   "status": "partial",
   "theorems": [
    "C42_fails",
    "C42_small_output_partial",
    "C42_normal_exit"
   ],
   "note": "FALSE of the tool: whenever the C library passes on a stream holding sig_bytes+mlen bytes, the complete signature can be out while the key file is still the old one, and the next run reuses the index (proved for every usable key and message). True part: if the signed message fits the stdout buffer."
  },
  {
   "property": "C43",
   "status": "partial",
   "theorems": [
    "C43_fails",
    "C43_fails_fast"
   ],
   "note": "FALSE of the tool: for every exhausted key file it exits 0 and writes sig_bytes+mlen bytes; the fast build writes as many bytes as the uninitialised variable smlen says (both proved)."
  },
  {
   "property": "C44",
   "status": "partial",
   "theorems": [
    "C44_exit_status",
    "C44_fails_for_short_files",
    "C44_other_failures"
   ],
   "note": "Proved for all signature files of at least sig_bytes bytes and all other failures. FALSE for shorter files: undefined behaviour (proved)."
  },
  {
   "property": "C45",
   "status": "proved",
   "theorems": [
    "C45_unknown_names",
    "C45_known_names"
   ],
   "note": ""
  },
  {
   "property": "C46",
   "status": "proved",
   "theorems": [
    "C46_common_certificates"
   ],
   "note": ""
  },
  {
   "property": "C47",
   "status": "partial",
   "theorems": [
    "C47_height_64_undefined",
    "C47_unreachable_from_api"
   ],
   "note": "FALSE of the code: with full_height 64 every sign call is undefined behaviour (1ULL << 64). No OID has this height."
  },
  {
   "property": "C48",
   "status": "proved",
   "theorems": [
    "C48_forgery_breaks_hash",
    "C48_met_by_key_copy"
   ],
   "note": ""
  },
  {
   "property": "C49",
   "status": "proved",
   "theorems": [
    "C49_fast_completeness",
    "C49_open_is_the_same"
   ],
   "note": "Scope as in the statement: 40/8 and 60/12 only up to 2^20-1 calls (beyond it C33_fails)."
  },
  {
   "property": "C50",
   "status": "proved",
   "theorems": [
    "C50_fast_indices",
    "C50_last_signature_ignores_key",
    "C50_fails_for_height_40"
   ],
   "note": "Scope as in the statement (FastCovered); the exception at height 40 is proved too."
  },
  {
   "property": "C51",
   "status": "proved",
   "theorems": [
    "C51_simple_tools",
    "C51_fast_tools"
   ],
   "note": "Fast sets 40/8 and 60/12: fewer than 2^20 runs (see C33)."
  },
  {
   "property": "C52",
   "status": "partial",
   "theorems": [
    "C52_fails",
    "C52_fails_rollback",
    "C52_all_interleavings",
    "C52_serial_runs_partial"
   ],
   "note": "FALSE of the tools: no locking; two runs that both read the key file before either rewrites it sign with the same one-time key, and a slow run rolls the stored index back (both proved, for all keys and messages).  True part: serial runs never reuse an index; for all interleavings the index of each run is the one stored at its read."
  },
  {
   "property": "C53",
   "status": "proved",
   "theorems": [
    "C53_standard",
    "C53_hash_function",
    "C53_standard_fast"
   ],
   "note": "Fast sets 40/8 and 60/12: first 2^20-1 calls (see C33)."
  },
  {
   "property": "C54",
   "status": "proved",
   "theorems": [
    "C54_seeds_are_device_bytes",
    "C54_seeds_are_device_bytes_fast",
    "C54_waits_for_entropy",
    "C54_waits_for_entropy_fast"
   ],
   "note": ""
  },
  {
   "property": "C55",
   "status": "partial",
   "theorems": [
    "C55_torn_key",
    "C55_indices_can_be_lost",
    "C55_crash_history_partial",
    "C55_fails_for_height_40",
    "C55_torn_key_fast",
    "C55_crash_history_fast_partial"
   ],
   "note": "Tools linked with either implementation; for the fast one with any traversal state in the file, for runs whose library call is defined.  Proved for all sets except height 40, where it is FALSE: the five index bytes wrap around at the last index and a crash after the first byte leaves the complete key with index 2^32-1 (proved)."
  },
  {
   "property": "C56",
   "status": "proved",
   "theorems": [
    "C56_damaged_state",
    "C56_damaged_history",
    "C56_nonvacuous"
   ],
   "note": "For calls whose model is defined, i.e. which do not read or write outside the arrays of the state; a damaged stack offset can make the code do so.  At height 40 histories end at the last index (index bytes wrap around, see C18)."
  },
  {
   "property": "C57",
   "status": "partial",
   "theorems": [
    "C57_usable_after_crashes",
    "C57_fails_fast"
   ],
   "note": "Proved for the tools linked with the simple implementation (all sets except height 40, where C55 fails).  FALSE for the tools linked with the fast implementation: a crash between index and traversal state leaves a key file with which the next signed message is rejected by the verification tool (proved for XMSS, for every odd number of earlier runs, unless explicit nodes of this key's tree collide)."
  },
  {
   "property": "C58",
   "status": "proved",
   "theorems": [
    "C58_not_malleable",
    "C58_fast",
    "C58_met_by_worthless_hash"
   ],
   "note": ""
  },
  {
   "property": "C59",
   "status": "proved",
   "theorems": [
    "C59_concurrent_fill",
    "C59_no_overrun",
    "C59_never_stuck",
    "C59_races"
   ],
   "note": "Accesses to the static descriptor are taken as atomic and sequentially consistent (formally a C data race)."
  },
  {
   "property": "C60",
   "status": "partial",
   "theorems": [
    "C60_simple_partial",
    "C60_fails_fast_xmss",
    "C60_fails_fast_xmssmt",
    "C60_tool_fails"
   ],
   "note": "Proved for the simple implementation (first OID byte below 128, see C30).  FALSE for the fast one: the stack fill level in the traversal state is not checked, and for every key and message there is a content with which sign writes behind the end of the secret key (proved, also for the signing tool)."
  },
  {
   "property": "C61",
   "status": "proved",
   "theorems": [
    "C36_exact",
    "C36_wrong_node",
    "C36_registered",
    "C36_height10"
   ],
   "note": "The converse direction uses a hash function that separates neighbouring nodes; C36_wrong_node (the stale node) holds for every hash function, for runs whose calls are all defined."
  },
  {
   "property": "C62",
   "status": "partial",
   "theorems": [
    "C62_wots_test",
    "C62_determinism_test",
    "C62_xmss_test",
    "C62_xmss_fast_test",
    "C62_max_signatures_test",
    "C62_oid_test",
    "C62_xmss_fast_last",
    "C62_fails"
   ],
   "note": "Proved for every program but one: test/xmss_fast is built with 1024 = 2^10 signatures, so its last signature is made from the deleted key; it can return 0 only if a fixed byte string is accepted for the random key (C62_xmss_fast_last), and with a concrete hash function it returns -1 (Toy.C62_fails).  test/speed is C69, test/vectors C68."
  },
  {
   "property": "C63",
   "status": "proved",
   "theorems": [
    "C63_reuse_forges",
    "C63_single_use_safe",
    "C63_can_give_everything",
    "C63_fast"
   ],
   "note": "The attacker is the function Reuse.forge, which gets no secret.  C63_can_give_everything: a concrete hash function and two messages after which every message can be forged.  C63_fast is for XMSS in the fast build."
  },
  {
   "property": "C64",
   "status": "proved",
   "theorems": [
    "C64_sign",
    "C64_sign_fast",
    "C64_open_disjoint"
   ],
   "note": "Model/Alias.lean has the API with pointers into one memory.  C64_sign and C64_sign_fast also say which placements are undefined behaviour.  C64_sign_fast is relative to the outcome of the call on separate buffers, which C32 and C33 describe."
  },
  {
   "property": "C65",
   "status": "partial",
   "theorems": [
    "C65_sign_in_place_partial",
    "C65_open_in_place",
    "C65_in_place_rejects",
    "C65_in_place_fails",
    "C65_open_behind",
    "C65_behind_fails",
    "C65_behind_fails_honest",
    "C65_fast_in_place_fails"
   ],
   "note": "True for sign in the simple build only.  False of the rest of the code: the fast build stores the beginning of the signature where the message should be (C65_fast_in_place_fails); open with m == sm overwrites the end of the signature before reading it and rejects honest signatures (C65_in_place_fails, C65_in_place_rejects); open with m == sm + sig_bytes accepts but returns a damaged message if it is longer than sig_bytes - padding_len - 3n (C65_behind_fails)."
  },
  {
   "property": "C66",
   "status": "partial",
   "theorems": [
    "C66_refused_partial",
    "C66_shared_oids",
    "C66_wrong_family",
    "C66_cases",
    "C66_fails",
    "C66_changes_seed",
    "C66_deletes_key",
    "C66_deleted_key_signs",
    "C66_same_hash",
    "C66_open_collision",
    "C66_met_by_worthless_hash"
   ],
   "note": "True only of XMSS^MT keys with an OID above 21 (C66_refused_partial).  False of the code otherwise: the two families use overlapping OIDs and the keys do not say to which they belong.  C66_wrong_family describes signing with a key of the other family completely, C66_cases which of its cases each OID leads to; single consequences: 256 signatures lost (C66_fails), SK_SEED changed (C66_changes_seed), key deleted (C66_deletes_key) in such a way that the right function goes on to sign with zeros (C66_deleted_key_signs).  C66_open_collision: where the hash functions agree, nothing is accepted unless the hash function has a collision."
  },
  {
   "property": "C67",
   "status": "partial",
   "theorems": [
    "C67_mixed_indices",
    "C67_simple_verifies_partial",
    "C67_fails",
    "C67_simple_key_too_short"
   ],
   "note": "Proved for keys of the fast build in every order of calls that is not undefined behaviour: the indices count up and never repeat, and what the simple build signs is the RFC signature and verifies.  Two parts are false of the code: a call of the fast build after one of the simple build may return 0 with a signature that open rejects (C67_fails, the traversal state is one leaf behind; shown for XMSS after an odd number of fast calls), and the fast build reads behind the end of a key of the simple build (C67_simple_key_too_short)."
  },
  {
   "property": "C68",
   "status": "proved",
   "theorems": [
    "C68_vectors",
    "C68_xmss_line",
    "C68_wots_line",
    "C68_high_trees_undefined"
   ],
   "note": "The WOTS+ lines use addresses whose words do not follow the RFC's layout; Spec/AnyAddr gives the RFC algorithms under an arbitrary address head.  C68_xmss_line covers every registered set of height up to 31; for heights 40 and 60 the function would shift an int by 39 or 59 (C68_high_trees_undefined), main does not call it for these."
  },
  {
   "property": "C69",
   "status": "partial",
   "theorems": [
    "C69_exit_code",
    "C69_errors_reported",
    "C69_average",
    "C69_median_odd",
    "C69_median_even",
    "C69_median_fails",
    "C69_two_readings",
    "C69_one_reading"
   ],
   "note": "Proved: exit code 0 with this library, nonzero with any library that rejects one of its signatures (C69_errors_reported), the average, and the median for an odd number of readings.  For an even number, the default, the first figure is false: print_results sorts the durations together with the last raw reading of the counter and averages the median with the next larger duration (C69_median_even says when this is still a median, C69_median_fails shows a run where it is not; for two signatures the raw counter value enters the figure, C69_two_readings).  One signature divides by zero (C69_one_reading)."
  },
  {
   "property": "C70",
   "status": "partial",
   "theorems": [
    "C70_every_schedule",
    "C70_locked_partial",
    "C70_race",
    "C70_torn",
    "C70_example"
   ],
   "note": "Proved for schedules in which the calls do not overlap, in any order, also across the end of the key: the threads get what the same calls get one after another (C70_locked_partial).  False without a lock: two overlapping calls sign with the same index and give further signatures away (C70_race, with C63); at an index that is 255 modulo 256 a torn read even signs with an index used 255 signatures ago and leaves the stored index 254 behind (C70_torn).  Under every schedule the calls stay inside their buffers and return (C70_every_schedule)."
  },
  {
   "property": "C71",
   "status": "proved",
   "theorems": [
    "C71_secrets_only_prf",
    "C71_fast",
    "C71_example"
   ],
   "note": "Both builds; for the fast build the histories on which it is defined (C34).  The call after the last index uses the deleted key, see C17."
  },
  {
   "property": "C72",
   "status": "proved",
   "theorems": [
    "C72_same",
    "C72_keygen",
    "C72_sign",
    "C72_verify",
    "C72_example"
   ],
   "note": "Simple implementation and verification.  C72_same: the functions with the record of their calls are the functions of the API, for all arguments.  Spec/Calls.lean lists the calls from the algorithms."
  },
  {
   "property": "C73",
   "status": "proved",
   "theorems": [
    "C73_no_secret_in_calls",
    "C73_together",
    "C73_example"
   ],
   "note": "Simple implementation.  What is recorded is the argument inlen of every call of core_hash, in order; branches and memory addresses inside the hash functions are outside the model."
  },
  {
   "property": "C74",
   "status": "proved",
   "theorems": [
    "C74_same",
    "C74_same_history",
    "C74_keygen",
    "C74_sign",
    "C74_history",
    "C74_xmssmt",
    "C74_xmssmt_worst",
    "C74_example"
   ],
   "note": "C74_same: the functions with the record of their calls are the functions of the API, for all arguments.  C74_sign and C74_history assume nothing about the stored state, only that the call is defined; for generated keys it is (C34).  The number of leaves is that of C35."
  },
  {
   "property": "C75",
   "status": "proved",
   "theorems": [
    "C75_same_calls",
    "C75_window",
    "C75_end",
    "C75_inner",
    "C75_example",
    "C75_window_met"
   ],
   "note": "C75_same_calls: calls up to number 2^h - 1 of every XMSS set and XMSSMT 20/2, 20/4, 40/2, 40/4, 60/3, 60/6, and the first 2^20 - 1 calls of 40/8 and 60/12.  C75_window: all defined histories of 40/8 and 60/12 (fewer than 2^20 + 2^18 calls; every longer one is undefined, C34_fails); in call number 2^20 the value signed on layer 3 is not a root but a node of height 4.  C75_end: call number 2^h and the refused calls after it (at height 40, where the index wraps around, C19, histories end with call number 2^40)."
  },
  {
   "property": "C76",
   "status": "proved",
   "theorems": [
    "C76_same",
    "C76_keygen",
    "C76_sign",
    "C76_life",
    "C76_one_input"
   ],
   "note": "C76_same: the functions recording the strings hashed are, after forgetting the strings, the functions of C72/C74 (which are those of the API).  The specification of the strings is Spec/Inputs.lean.  C76_keygen to C76_one_input are for the simple implementation (xmss_core.c); C76_same covers both."
  },
  {
   "property": "C77",
   "status": "partial",
   "theorems": [
    "C77_no_failure",
    "C77_reported_partial",
    "C77_open_partial",
    "C77_exit_status_ignores_writes",
    "C77_key_not_stored",
    "C77_fails",
    "C77_fails_fast",
    "C77_fails_output",
    "C77_fails_message",
    "C77_fails_keypair",
    "C77_fails_open",
    "C77_fails_pipe"
   ],
   "note": "FALSE of the tools as written.  Proved: exactly a wrong argument count, a failing fopen and an unknown OID are reported (C77_reported_partial, C77_open_partial); for every generated key and history, a run whose key update does not reach the file exits with status 0, its output verifies, and the next run signs with the same one-time key (C77_fails, C77_fails_fast); incomplete output, an unreadable message and an incomplete key pair also give status 0; a pipe as message is undefined behaviour.  Without failures the model is the one of the other properties of the tools (C77_no_failure)."
  },
  {
   "property": "C78",
   "status": "proved",
   "theorems": [
    "C78_same",
    "C78_same_history",
    "C78_keygen",
    "C78_life",
    "C78_one_input"
   ],
   "note": "The statement is for the covered histories (FastCovered); outside of them (C33_fails, C34) the fast implementation uses wrong states.  The specification of the strings is Spec/Inputs.lean, as for C76."
  },
  {
   "property": "C79",
   "status": "partial",
   "theorems": [
    "C79_crash_history_fast_partial",
    "C79_crash_history_simple_partial",
    "C79_fails_simple",
    "C79_indices_lost_fast",
    "C79_whole_call",
    "C79_whole_call_fast",
    "C79_example",
    "C79_example_simple"
   ],
   "note": "Bytes are assumed to become persistent in program order.  Partial: height 40 is excluded (there the deleted index is also the last index, C55_fails_for_height_40); the simple implementation needs the hypothesis on 255 mod 256, refuted without it by C79_fails_simple.  After a crash inside the computation of the signature the traversal state in the key is arbitrary, and a later call of the fast implementation may be undefined (C56)."
  },
  {
   "property": "C80",
   "status": "partial",
   "theorems": [
    "C80_index_field",
    "C80_shares",
    "C80_overlap",
    "C80_no_forward_security",
    "C80_fails_fast"
   ],
   "note": "True and proved for the simple implementation; FALSE for the fast implementation: C80_fails_fast (any family, any history within the scope of C49, any other index) shows that a call that is not undefined returns 0 and its signature is rejected by open, unless two different leaves of the key have the same value or the signature is one of the explicit breaks of the hash function of C58; for XMSS and even indices the call is never undefined.  The case i = n + 1 of C80_fails_fast is the key file of C57 / C67 after a lost call, for even and odd n and for XMSSMT."
  },
  {
   "property": "C81",
   "status": "proved",
   "theorems": [
    "C81_one_message",
    "C81_fast",
    "C81_met"
   ],
   "note": "Reduction with explicit breaks; hypotheses met with a worthless hash function (C81_met)."
  },
  {
   "property": "C82",
   "status": "proved",
   "theorems": [
    "C82_root_commits",
    "C82_met"
   ],
   "note": "For both builds (C49_open_is_the_same).  Sets with different hash functions or output lengths are not compared: there a common root is no collision of one function."
  },
  {
   "property": "C83",
   "status": "proved",
   "theorems": [
    "C83_keypair",
    "C83_keypair_reject",
    "C83_sign",
    "C83_reject",
    "C83_open",
    "C83_sign_refines",
    "C83_open_refines",
    "C83_keypair_refines",
    "C83_history",
    "C83_whole_use",
    "C83_undefined_oid",
    "C83_undefined_short_input",
    "C83_undefined_small_buffer",
    "C83_undefined_overlap"
   ],
   "note": "Model/Low is a second, pointer-level model of xmss.c, xmss_core.c, xmss_commons.c, wots.c, hash.c and utils.c; the _refines theorems connect it to the first model, so that properties proved there hold here.  uint32_t addr[8] arrays are values, and only accesses (not pointer computations) are checked."
  },
  {
   "property": "C84",
   "status": "proved",
   "theorems": [
    "C84_sign_refines",
    "C84_keypair",
    "C84_history",
    "C84_use",
    "C84_open",
    "C84_reject",
    "C84_undefined_keypair"
   ],
   "note": "Both families.  For XMSSMT, C84_sign_refines and C84_history require of the key that the leaf counter of every traversal state is at most 2^h' (Counted): every key made by keypair has that, every sign call preserves it, and C84_use does not ask for it; a key damaged in these four-byte fields is outside (the 32-bit counter can then wrap, which the byte-string view does not follow)."
  },
  {
   "property": "C85",
   "status": "proved",
   "theorems": [
    "C85_shake128",
    "C85_shake256",
    "C85_defined",
    "C85_core_hash",
    "C85_instance",
    "C85_instance_undefined"
   ],
   "note": "fips202.c is now part of the pointer-level model, so C83 and C84 rest on it too.  The 24 rounds of the permutation work on 64-bit local variables and are the function of C37; OpenSSL's SHA-2 reads all its input and then writes its digest."
  },
  {
   "property": "C86",
   "status": "proved",
   "theorems": [
    "C86_open_other",
    "C84_undefined_short_input",
    "C86_keypair",
    "C86_keypair_fast",
    "C86_sign",
    "C86_sign_fast",
    "C86_sign_other",
    "C84_sign_uninitialised",
    "C86_open",
    "C86_history",
    "C86_history_fast",
    "C86_use",
    "C86_use_fast"
   ],
   "note": "Failing malloc, fseek, ftell and fwrite are in C77, argument counts and missing files of the verification tool too; crashes in C55 and C57.  C86_sign_fast and C86_history_fast are about keys on which the sign call of the first model is defined (C86_use_fast: all generated ones), for XMSSMT with leaf counters in range (Counted).  The key file of C86_use_fast is one that the fast key generation tool can only write if reading its uninitialised buffer gives some bytes."
  },
  {
   "property": "C87",
   "status": "proved",
   "theorems": [
    "C87_randombytes",
    "C87_keypair",
    "C87_keypair_fast",
    "C87_undefined_keypair",
    "C87_keypair_unknown",
    "C87_keypair_tool"
   ],
   "note": "That the fast build returns is proved for devices whose reads can be cut into ones that bring 2n bytes and ones that bring n: a single read that delivers more than it was asked for loses the rest (C40), as the model of read cuts at the request.  Concurrent calls are in C59."
  },
  {
   "property": "C88",
   "status": "proved",
   "theorems": [
    "C88_many_keys",
    "C88_many_keys_fast",
    "C88_many_keys_fast_refines",
    "C88_program",
    "C88_keygen_fast",
    "C88_instance",
    "C88_program_instance"
   ],
   "note": "Calls are atomic (one after the other); threads inside one call are in C70 and C59.  Fast build: keys made by its key generation; of XMSSMT 40/8 and 60/12 the first 2^20 - 1 calls of a key (C33, C49); C88_many_keys_fast_refines is without these conditions, relative to the first model."
  },
  {
   "property": "C89",
   "status": "proved",
   "theorems": [
    "C89_xmss_test",
    "C89_xmss_test_refines",
    "C89_determinism_test",
    "C89_wots_test",
    "C89_fast",
    "C89_vectors",
    "C89_vectors_xmss",
    "C89_vectors_wots",
    "C89_speed",
    "C89_instance"
   ],
   "note": "Level: the memory of Model/Low.lean.  What the fast programs do if the array happens to be readable: C62.  Not here: test/oid (C62, no memory), free, failing malloc."
  }
 ]
}