{"id": "C01", "title": "Parameter names and OIDs agree", "statement": "For every string, xmss_str_to_oid / xmssmt_str_to_oid either returns -1 or yields an OID that the matching parse_oid accepts, and the parameters it then fills in (hash family, n, tree height, layers) are exactly the ones spelled out in the name; every name of the RFC 8391 / SP 800-208 tables is accepted; two different names never give the same OID.", "quantifier": "every string; every OID they produce", "why_tests_cant": "test/oid.c only checks that 77 fixed names do not return an error; it never looks at the parameters and cannot enumerate all strings.", "anchors": ["params.c:xmss_str_to_oid", "params.c:xmssmt_str_to_oid", "params.c:xmss_parse_oid", "params.c:xmssmt_parse_oid"]}
{"id": "C02", "title": "Unknown OIDs are rejected", "statement": "xmss_parse_oid accepts exactly the 21 assigned OIDs 1..0x15 and xmssmt_parse_oid exactly 1..0x38; every other 32-bit value returns -1, so keypair, sign and open on such an OID return -1 without touching keys or signatures.", "quantifier": "every 32-bit OID value", "why_tests_cant": "2^32 values times three entry points.", "anchors": ["params.c:xmss_parse_oid", "params.c:xmssmt_parse_oid", "xmss.c"]}
{"id": "C03", "title": "Derived sizes are the RFC 8391 sizes", "statement": "For every accepted OID the derived fields obey the RFC formulas: len_1 = ceil(8n/lg w), len_2 = floor(lg(len_1 (w-1))/lg w)+1, signature = index + n + d*len*n + h*n bytes, pk = 2n, index 4 bytes for XMSS and ceil(h/8) for XMSS^MT, and tree_height * d = full_height.  More generally the hard coded len_2 is the RFC value for w=16 and every n from 9 to 136.", "quantifier": "every accepted OID; every n in the stated range for w in {4,16,256}", "why_tests_cant": "tests print no sizes for most sets; the len_2 claim is over a range of n.", "anchors": ["params.c:xmss_xmssmt_initialize_params"]}
{"id": "C04", "title": "Integer/byte-string conversion is exact", "statement": "Writing an integer with ull_to_bytes into k bytes and reading it with bytes_to_ull gives the integer modulo 256^k; the bytes are big-endian; writing is injective below 256^k.  For more than 8 bytes, reading is undefined behaviour in C.", "quantifier": "every 64-bit integer and every length", "why_tests_cant": "2^64 values times all lengths.", "anchors": ["utils.c:ull_to_bytes", "utils.c:bytes_to_ull"]}
{"id": "C05", "title": "Keys carry their own parameter set", "statement": "The first four bytes of both keys produced by keypair(oid) are the big-endian OID, and sign / open recover from them exactly the OID given to keypair; signing never changes them.", "quantifier": "every accepted OID, all key material, any number of signatures", "why_tests_cant": "all histories of a key.", "anchors": ["xmss.c:xmss_keypair", "xmss.c:xmss_sign", "xmss.c:xmss_sign_open", "xmss.c:xmssmt_keypair", "xmss.c:xmssmt_sign", "xmss.c:xmssmt_sign_open"]}
{"id": "C06", "title": "Message digits", "statement": "The first len_1 WOTS chain lengths are the base-w digits of the n-byte message, most significant first (so they determine the message), the remaining len_2 are the base-w digits of the checksum sum(w-1-digit), and every chain length is below w.", "quantifier": "every n-byte message; w in {4,16}; every supported n", "why_tests_cant": "256^n messages.", "anchors": ["wots.c:base_w", "wots.c:wots_checksum", "wots.c:chain_lengths"]}
{"id": "C07", "title": "WOTS checksum prevents extension", "statement": "For two different messages there is always a chain on which the second message needs a strictly smaller chain length than the first; so the signature of one message never directly contains the information to sign another.", "quantifier": "every pair of distinct messages, every Winternitz parameter accepted by xmss_xmssmt_initialize_params", "why_tests_cant": "pairs of n-byte messages; random tests essentially never come close to the boundary.", "anchors": ["wots.c:wots_checksum", "wots.c:chain_lengths", "params.c:xmss_xmssmt_initialize_params"]}
{"id": "C08", "title": "WOTS sign/verify round trip", "statement": "For every message, seed, public seed and address, the WOTS public key recovered from a WOTS signature of that message equals the generated WOTS public key.", "quantifier": "every message, seed, address, hash function", "why_tests_cant": "infinite input space; tests check a few random ones.", "anchors": ["wots.c:wots_sign", "wots.c:wots_pk_from_sig", "wots.c:wots_pkgen", "wots.c:gen_chain"]}
{"id": "C09", "title": "A WOTS forgery inverts a hash chain", "statement": "If a signature on a different message leads to the same WOTS public key as an honest signature, then on some chain the forgery contains either a value from which the published chain value is reached by forward hashing from a strictly earlier position, or an explicit collision of the chaining hash at one address.", "quantifier": "every two messages and every candidate signature", "why_tests_cant": "an adversarial, universally quantified input.", "anchors": ["wots.c:wots_pk_from_sig", "wots.c:gen_chain", "wots.c:chain_lengths"]}
{"id": "C10", "title": "Hash address separation", "statement": "Within one key pair no two distinct tree-hash, L-tree or chaining calls share a serialised 32-byte address, whatever the address structure contained before: the bytes determine layer, tree, type, position and key/mask selector, for every layer, tree index below 2^64, leaf, chain, step, and are those of RFC 8391 section 2.5.  (The key derivation of chain j uses the address of step 0 of that chain; it is separated by its role, C11.)", "quantifier": "every pair of calls in the whole hypertree", "why_tests_cant": "up to 2^60 leaves times thousands of calls.", "anchors": ["hash_address.c", "hash.c:addr_to_bytes", "hash.c:thash_f", "hash.c:thash_h", "wots.c:expand_seed"]}
{"id": "C11", "title": "Hash role separation", "statement": "The byte strings fed to the underlying hash in the roles F, H, H_msg, PRF and PRF_keygen are pairwise different, whatever their inputs.", "quantifier": "all inputs of all five roles", "why_tests_cant": "all byte strings.", "anchors": ["hash.c:prf", "hash.c:prf_keygen", "hash.c:hash_message", "hash.c:thash_h", "hash.c:thash_f"]}
{"id": "C12", "title": "Every accepted parameter set has a hash function", "statement": "For every OID accepted by the parsers the internal hash never takes its unsupported branch, and its output is always exactly n bytes.", "quantifier": "every accepted OID and every input", "why_tests_cant": "all inputs; return codes of the internal hash are ignored by all callers, so a failing branch would silently use uninitialised memory.", "anchors": ["hash.c:core_hash", "params.c"]}
{"id": "C13", "title": "Key generation computes the Merkle root", "statement": "The root in the public key equals the root of the binary hash tree over the 2^tree_height WOTS leaves of the top layer, as defined by RFC 8391 treeHash, for every height; the authentication path computed while signing is the list of siblings on the way from the used leaf to that root; the node stack never holds more than tree_height+1 nodes.", "quantifier": "every seed, leaf index and tree height", "why_tests_cant": "2^20 leaves and all leaf indices.", "anchors": ["xmss_core.c:treehash", "xmss_core.c:xmssmt_core_seed_keypair"]}
{"id": "C14", "title": "L-tree computed in place is the RFC L-tree", "statement": "The in-place L-tree evaluation yields the RFC 8391 ltree value for every number of WOTS chains (odd rows included) and never reads a node it has already overwritten.", "quantifier": "every number of nodes and all node values", "why_tests_cant": "tests only exercise len=67.", "anchors": ["xmss_commons.c:l_tree"]}
{"id": "C15", "title": "Authentication path soundness (Merkle binding)", "statement": "If two different leaves at the same index, with any two authentication paths, lead to the same root, then an explicit collision of the tree hash at one node address can be read off the two paths.", "quantifier": "every index, every pair of leaves and paths, every height", "why_tests_cant": "adversarial inputs.", "anchors": ["xmss_commons.c:compute_root"]}
{"id": "C16", "title": "Signatures verify (completeness)", "statement": "For every accepted OID, all seeds, every message and every key index below 2^h-1 reached by signing, sign returns 0 and open on its output with the matching public key returns 0, the original message and its length.", "quantifier": "every OID, seed, message, index (any number of previous signatures with any messages)", "why_tests_cant": "2^60 indices; the test suite verifies 16..1024 signatures of two parameter sets.", "anchors": ["xmss_core.c:xmssmt_core_sign", "xmss_commons.c:xmssmt_core_sign_open", "xmss.c"]}
{"id": "C17", "title": "The last signature of a key also verifies", "statement": "Signing with the last one-time key (index 2^h-1), which returns 0, produces a signature that verifies under the public key.", "quantifier": "every OID, seed and message at the last index", "why_tests_cant": "reaching the last index takes 2^h signatures; the max-signature test never verifies.", "anchors": ["xmss_core.c:xmssmt_core_sign", "xmss_core_fast.c:xmss_core_sign", "xmss_core_fast.c:xmssmt_core_sign"]}
{"id": "C18", "title": "No one-time key is used twice", "statement": "In any sequence of sign calls on one secret key, the successful signatures carry the indices 0,1,2,... in order, so no two of them use the same index.", "quantifier": "every sequence of messages of any length", "why_tests_cant": "all histories of up to 2^60 calls.", "anchors": ["xmss_core.c:xmssmt_core_sign", "ui/sign.c"]}
{"id": "C19", "title": "Exhausted keys refuse to sign, forever", "statement": "After 2^h successful signatures every further sign call returns -2 and the secret key holds no seed material.", "quantifier": "every OID; every number of further calls", "why_tests_cant": "2^h calls needed first; histories unbounded.", "anchors": ["xmss_core.c:xmssmt_core_sign", "xmss_core_fast.c:xmss_core_sign", "xmss_core_fast.c:xmssmt_core_sign"]}
{"id": "C20", "title": "Signing is memory safe", "statement": "sign with a secret-key buffer of 4+sk_bytes and an output buffer of sig_bytes+mlen bytes never accesses memory outside those buffers, for every content of both (including exhausted or corrupted indices).", "quantifier": "every OID, key bytes, message", "why_tests_cant": "sanitizers only see executed inputs.", "anchors": ["xmss_core.c:xmssmt_core_sign", "hash.c:hash_message"]}
{"id": "C21", "title": "Opening is memory safe for every input", "statement": "open on any byte string sm of any length smlen, with an output buffer of smlen bytes, never accesses memory outside the buffers.", "quantifier": "every sm, smlen and pk", "why_tests_cant": "adversarial inputs of any length.", "anchors": ["xmss_commons.c:xmssmt_core_sign_open", "ui/open.c"]}
{"id": "C22", "title": "Signature format", "statement": "On success smlen = sig_bytes+mlen and sm = index || R || (WOTS signature || authentication path) per layer || message, where R = PRF(SK_PRF, index); the output does not depend on the previous contents of the output buffer.", "quantifier": "every key state, message and initial buffer contents", "why_tests_cant": "all inputs.", "anchors": ["xmss_core.c:xmssmt_core_sign"]}
{"id": "C23", "title": "Signing conforms to RFC 8391", "statement": "The bytes produced by sign equal those of the RFC 8391 XMSS^MT_sign algorithm (with the repository's key-derivation PRF) for every key, index below 2^h-1 and message, and open accepts exactly when the RFC 8391 verification algorithm does.", "quantifier": "every OID, key, index, message, and for open every byte string of sufficient length", "why_tests_cant": "test vectors cover a handful of points.", "anchors": ["xmss_core.c", "xmss_commons.c", "wots.c", "hash.c"]}
{"id": "C24", "title": "Open delivers exactly the signed message or nothing", "statement": "When open returns 0, the first mlen bytes of m are the message part of sm and mlen = smlen - sig_bytes; when it returns -1 for a well-formed length, mlen is 0 and the first smlen - sig_bytes bytes of m are zero.", "quantifier": "every sm of sufficient length, every pk", "why_tests_cant": "all inputs.", "anchors": ["xmss_commons.c:xmssmt_core_sign_open"]}
{"id": "C25", "title": "A rejected message leaves no trace in the output buffer", "statement": "When open returns -1, no byte of the (unauthenticated) message remains in the caller's output buffer m.", "quantifier": "every rejected input", "why_tests_cant": "tests never look at m after a failure.", "anchors": ["xmss_commons.c:xmssmt_core_sign_open"]}
{"id": "C26", "title": "Signing changes nothing but the index", "statement": "A successful sign before the last index leaves SK_SEED, SK_PRF, root and PUB_SEED in the secret key unchanged and increments the stored index by exactly one.", "quantifier": "every key, index, message", "why_tests_cant": "all histories.", "anchors": ["xmss_core.c:xmssmt_core_sign"]}
{"id": "C27", "title": "Signing is deterministic", "statement": "The same secret key bytes and message always give the same signature and the same new secret key, regardless of previous buffer contents.", "quantifier": "every key, message, buffer contents", "why_tests_cant": "the determinism test signs one message once.", "anchors": ["xmss_core.c:xmssmt_core_sign", "test/xmss_determinism.c"]}
{"id": "C28", "title": "Acceptance binds the message to the key (reduction)", "statement": "If open accepts some message under an honestly generated public key at an index below 2^h, then (a) on some layer the accepted bytes contain an explicit collision of the tree hash or of the L-tree hash, or (b) on some layer above 0 the key's own WOTS public key verified a value other than the subtree root the key signs there (a WOTS forgery, see C09), or (c) on every layer the accepted WOTS public key is the key's own and every value verified above layer 0 is the honest subtree root.", "quantifier": "every sm accepted under an honest key", "why_tests_cant": "adversarial input.", "anchors": ["xmss_commons.c:xmssmt_core_sign_open"]}
{"id": "C29", "title": "The verifier rejects indices outside the tree", "statement": "open returns -1 whenever the index field of the signature is not below 2^h.", "quantifier": "every signature with an out-of-range index", "why_tests_cant": "adversarial input; XMSS carries a 32-bit index field for 10..20 bit trees.", "anchors": ["xmss_commons.c:xmssmt_core_sign_open"]}
{"id": "C30", "title": "Key layout", "statement": "Secret key = OID || index || SK_SEED || SK_PRF || root || PUB_SEED (|| traversal state) and public key = OID || root || PUB_SEED with the same root and PUB_SEED, of exactly the announced sizes.", "quantifier": "every OID and seed", "why_tests_cant": "all seeds; note that xmss.h documents another order of root and PUB_SEED.", "anchors": ["xmss_core.c:xmssmt_core_seed_keypair", "xmss_core_fast.c:xmssmt_core_keypair", "xmss.h"]}
{"id": "C31", "title": "Stored traversal state survives the byte encoding", "statement": "Writing the BDS traversal state into the secret key and reading it back yields the same state for every state whose counters fit their fields, and the encoding occupies exactly sk_bytes bytes with no overlap.", "quantifier": "every traversal state, every accepted OID", "why_tests_cant": "all states.", "anchors": ["xmss_core_fast.c:xmssmt_serialize_state", "xmss_core_fast.c:xmssmt_deserialize_state", "xmss_core_fast.c:xmss_xmssmt_core_sk_bytes"]}
{"id": "C32", "title": "Fast XMSS equals reference XMSS", "statement": "For every single-tree parameter set, the fast implementation started from the same seeds produces, for every index below 2^h-1 and every message sequence, exactly the signatures of the simple implementation.", "quantifier": "every tree height, every index, every message sequence", "why_tests_cant": "up to 2^20 signatures; correctness rests on a scheduling argument about deadlines of several concurrently computed nodes.", "anchors": ["xmss_core_fast.c:bds_round", "xmss_core_fast.c:bds_treehash_update", "xmss_core_fast.c:treehash_update", "xmss_core_fast.c:treehash_init", "xmss_core_fast.c:xmss_core_sign"]}
{"id": "C33", "title": "Fast XMSS^MT equals reference XMSS^MT", "statement": "For every multi-tree parameter set, the fast implementation produces exactly the signatures of the simple implementation at every index below 2^h-1.", "quantifier": "every XMSS^MT OID, every index, every message sequence", "why_tests_cant": "up to 2^60 signatures; the first wrong one can lie beyond 2^20.", "anchors": ["xmss_core_fast.c:xmssmt_core_sign", "xmss_core_fast.c:bds_state_update", "xmss_core_fast.c:deep_state_swap"]}
{"id": "C34", "title": "Traversal stack stays in bounds", "statement": "During fast signing the shared node stack never grows past its tree_height+1 slots, and no access to auth, keep, retain, treehash or stack arrays leaves its array.", "quantifier": "every index and every tree height", "why_tests_cant": "all histories.", "anchors": ["xmss_core_fast.c:treehash_update", "xmss_core_fast.c:bds_state_update", "xmss_core_fast.c:treehash_minheight_on_stack"]}
{"id": "C35", "title": "Bounded work per fast signature", "statement": "One fast signature performs at most (tree_height - bds_k)/2 tree-hash leaf updates plus one leaf per layer.", "quantifier": "every index", "why_tests_cant": "worst case over all indices.", "anchors": ["xmss_core_fast.c:bds_treehash_update", "xmss_core_fast.c:xmssmt_core_sign"]}
{"id": "C36", "title": "Any BDS trade-off parameter is correct", "statement": "Fast signing is correct for every bds_k with 0 <= bds_k <= tree_height.", "quantifier": "every height and every bds_k", "why_tests_cant": "the parameter is set to 0 for every OID and never varied by tests.", "anchors": ["xmss_core_fast.c", "params.c:xmss_xmssmt_initialize_params"]}
{"id": "C37", "title": "The permutation is Keccak-f[1600]", "statement": "KeccakF1600_StatePermute computes the FIPS 202 permutation (theta, rho, pi, chi, iota over 24 rounds) on every state.", "quantifier": "every 1600-bit state", "why_tests_cant": "2^1600 states.", "anchors": ["fips202.c:KeccakF1600_StatePermute"]}
{"id": "C38", "title": "shake128/shake256 are the FIPS 202 sponge", "statement": "shake128/256 absorb the message padded with 1111 and 10*1 in rate-sized blocks and squeeze exactly outlen bytes, for every message length and output length.", "quantifier": "every message and every output length", "why_tests_cant": "all lengths including block boundaries.", "anchors": ["fips202.c:keccak_absorb", "fips202.c:keccak_squeezeblocks", "fips202.c:shake128", "fips202.c:shake256"]}
{"id": "C39", "title": "XOF prefix consistency and injective padding", "statement": "A shorter SHAKE output is a prefix of a longer one for the same input, and two different inputs never have the same padded block sequence.", "quantifier": "all inputs, all pairs of output lengths", "why_tests_cant": "all inputs.", "anchors": ["fips202.c:shake128", "fips202.c:shake256", "fips202.c:keccak_absorb"]}
{"id": "C40", "title": "randombytes fills the whole buffer", "statement": "randombytes(x, xlen) returns only after exactly xlen bytes delivered by the device were stored, in order and without gaps, whatever sequence of short reads and errors read() produces, and it never writes past xlen.", "quantifier": "every xlen and every sequence of read() results", "why_tests_cant": "all schedules of short reads and failures.", "anchors": ["randombytes.c:randombytes"]}
{"id": "C41", "title": "Command line signing updates the key file in place", "statement": "After a successful xmss_sign run the key-pair file has the same length, its public key, both OIDs are unchanged and the secret key part is the key updated by sign; the output is the signed message.", "quantifier": "every valid key-pair file and message file", "why_tests_cant": "all files; tests never run the tools.", "anchors": ["ui/sign.c:main"]}
{"id": "C42", "title": "A crash never lets a one-time key be used twice", "statement": "At whatever point the signing tool is killed, if any signature byte has left the process then the key file already holds the incremented index.", "quantifier": "every crash point and every order in which buffered output reaches files", "why_tests_cant": "all crash points and flush schedules.", "anchors": ["ui/sign.c:main"]}
{"id": "C43", "title": "The signing tool reports exhaustion", "statement": "When the key is exhausted, xmss_sign exits with a failure status and writes no signature.", "quantifier": "every exhausted key file", "why_tests_cant": "needs 2^h signatures.", "anchors": ["ui/sign.c:main"]}
{"id": "C44", "title": "The verification tool's exit status is the verdict", "statement": "xmss_open exits 0 iff the signature file verifies under the public key at the start of the key file; trailing bytes of the key file are ignored.", "quantifier": "every pair of files", "why_tests_cant": "all files.", "anchors": ["ui/open.c:main"]}
{"id": "C45", "title": "The key generation tool rejects unknown names", "statement": "xmss_keypair with a name that is not a known parameter set exits with failure and writes no key.", "quantifier": "every argument string", "why_tests_cant": "all strings.", "anchors": ["ui/keypair.c:main"]}
{"id": "C46", "title": "Every tree in the hypertree is certified by its parent", "statement": "In an honest signature the WOTS signature on layer i+1 is a signature on the root of the layer-i tree containing the used leaf, so all signatures under one public key share the same upper-layer certificates for the same tree.", "quantifier": "every two indices in the same layer-i tree", "why_tests_cant": "all pairs of indices.", "anchors": ["xmss_core.c:xmssmt_core_sign"]}
{"id": "C47", "title": "Trees of height 64 keep one index in reserve", "statement": "As the source comment promises, for full_height = 64 the last index is never used and sign returns -2 for it, while all lower indices can be used.", "quantifier": "every parameter structure with full_height 64", "why_tests_cant": "2^64 signatures.", "anchors": ["xmss_core.c:xmssmt_core_sign"]}
{"id": "C48", "title": "A forgery against a used key breaks a hash function", "statement": "After key generation and any history of sign calls on chosen messages, if open accepts a message under the public key with an index at which this message was not signed, then the accepted bytes, the key and the history contain, explicitly, a collision of the tree or L-tree hash, a preimage or collision of the WOTS chaining function below a published position, a collision of H_msg with the message signed at this index, or (only for an index outside the tree, C29) a collision of the hash function at the root.", "quantifier": "every parameter set, seed, history of chosen messages, and accepted signature and message", "why_tests_cant": "The reduction ranges over all adversarial byte strings and all histories.", "anchors": ["xmss_commons.c:xmssmt_core_sign_open", "xmss_core.c:xmssmt_core_sign", "wots.c:wots_pk_from_sig"]}
{"id": "C49", "title": "Signatures of the fast implementation verify", "statement": "With the fast (BDS) implementation, after key generation with any seeds into buffers of any content, every one of the first 2^h - 1 sign calls returns 0 and opening its output returns 0, the message and its length; open is the same function in both builds. (For the sets XMSSMT 40/8 and 60/12: the first 2^20 - 1 calls, see C33 for what happens then.)", "quantifier": "every parameter set, seed, initial buffer content, history of messages and buffers", "why_tests_cant": "The BDS state evolves over up to 2^60 calls; tests run a few of them with one seed.", "anchors": ["xmss_core_fast.c:xmss_core_sign", "xmss_core_fast.c:xmssmt_core_sign", "xmss_commons.c:xmssmt_core_sign_open"]}
{"id": "C50", "title": "The fast implementation uses every index once and then refuses", "statement": "In every history of the fast implementation call number j < 2^h returns 0 and carries exactly the index j, after it the key stores j + 1; every later call returns -2, leaves the output buffer and its length untouched and leaves a key without any secret (index bytes 0xFF, all else 0). The 2^h-th signature is computed after deletion of the key and hence does not depend on it. (Scope: as C49; at height 40 the five index bytes wrap around after 2^40 calls and the next call is not refused.)", "quantifier": "every parameter set, seed and history of sign calls", "why_tests_cant": "The claim is about 2^h calls and more.", "anchors": ["xmss_core_fast.c:xmss_core_sign", "xmss_core_fast.c:xmssmt_core_sign"]}
{"id": "C51", "title": "The command line tools work together", "statement": "With every known parameter set name, the key file written by xmss_keypair can be used by xmss_sign any number of times below 2^h; every run exits 0, run j uses index j, and xmss_open accepts its output under the key file as it is before, between or after these runs. The same for the fast build of the tools.", "quantifier": "every name, seed, sequence of message files", "why_tests_cant": "all seeds, histories and messages; the test suite never runs the tools.", "anchors": ["ui/keypair.c:main", "ui/sign.c:main", "ui/open.c:main"]}
{"id": "C52", "title": "Concurrent runs of the signing tool never use the same one-time key", "statement": "When several xmss_sign processes run on the same key file, no two of the signatures they output carry the same index.", "quantifier": "every interleaving of any number of runs", "why_tests_cant": "all schedules of processes.", "anchors": ["ui/sign.c:main"]}
{"id": "C53", "title": "Named parameter sets are the ones of the standard", "statement": "For every name in the registry: the instance the library uses under this name has the hash function, n, h, d and signature length which RFC 8391 / NIST SP 800-208 prescribe for it, its hash function is that function, and sign and verify are the RFC algorithms instantiated with them.", "quantifier": "every registered name, key, message and signature", "why_tests_cant": "all inputs; tests only compare the implementation with itself.", "anchors": ["params.c:xmss_parse_oid", "params.c:xmssmt_parse_oid", "hash.c:core_hash", "xmss_core.c:xmssmt_core_sign"]}
{"id": "C54", "title": "All key material comes from the random device", "statement": "Key generation returns only after the random device has delivered 3n bytes; SK_SEED, SK_PRF and PUB_SEED of the generated key are exactly these bytes, in this order, each used once, whatever errors and short reads happen and whatever the buffers held; it returns as soon as the device has delivered enough. Both implementations.", "quantifier": "every parameter set, behaviour of the device, content of the buffers", "why_tests_cant": "all schedules of short reads and failures; a wrong offset or length that leaves some seed bytes constant still yields verifying signatures.", "anchors": ["xmss_core.c:xmssmt_core_keypair", "xmss_core_fast.c:xmss_core_keypair", "xmss_core_fast.c:xmssmt_core_keypair", "randombytes.c:randombytes"]}
{"id": "C55", "title": "A crash during the key file update never brings an index back", "statement": "When a run of xmss_sign is killed at any moment, also when only some bytes of the new secret key have reached the key file, the index stored afterwards is at least the old one, the key material behind it is intact as long as the index is usable, and in every sequence of such runs no one-time key is used in two outputs (for signed messages that fit the stdout buffer, see C42). The price: when 256^i divides the new index, a crash can skip 256^i - 1 indices.", "quantifier": "every key, message, sequence of runs, crash point of each run and every split of the writes", "why_tests_cant": "The claim is about all crash points inside the operating system's write and all histories.", "anchors": ["ui/sign.c:main", "xmss_core.c:xmssmt_core_sign", "utils.c:ull_to_bytes"]}
{"id": "C56", "title": "A damaged traversal state never makes the fast implementation reuse an index", "statement": "The fast implementation keeps its traversal state in the secret key behind the index and the key material. Whatever bytes are stored there (corruption, a torn write, a state of another key), every sign call that does not run into undefined behaviour uses exactly the stored index: it writes that index and the one-time signature of that index, stores the index plus one, and leaves the key material as it was; over any number of calls the indices increase by one, and after the last index calls are refused. Damage can make signatures invalid, but never makes an index come back.", "quantifier": "every fast parameter set, key, stored index, byte string in place of the traversal state, and sequence of calls", "why_tests_cant": "The states are all byte strings of several kilobytes; histories are unbounded.", "anchors": ["xmss_core_fast.c:xmss_core_sign", "xmss_core_fast.c:xmssmt_core_sign", "xmss_core_fast.c:xmssmt_deserialize_state", "xmss_core_fast.c:xmssmt_serialize_state"]}
{"id": "C57", "title": "A key file stays usable after crashes of the signing tool", "statement": "After any number of runs of xmss_sign on one key file, each killed at an arbitrary moment (also in the middle of a write), the key file still has its old length and public key, and unless its index has reached the end, the next run that is not killed exits with 0 and outputs a signed message that xmss_open accepts with this key file.", "quantifier": "every key, message, sequence of runs, crash point of each run and every split of the writes, both builds of the tool", "why_tests_cant": "The claim is about all crash points inside the operating system's write and all histories; a test cannot kill the tool at every byte of every history.", "anchors": ["ui/sign.c:main", "ui/open.c:main", "xmss_core.c:xmssmt_core_sign", "xmss_core_fast.c:xmss_core_sign", "xmss_core_fast.c:xmss_serialize_state"]}
{"id": "C58", "title": "Signatures are not malleable", "statement": "Whoever holds signatures made with a key and produces a signed message that open accepts under the public key and that differs in any byte - signature or message - from every output of the sign calls, has exhibited a collision or a preimage of the hash function at explicit inputs: a hash tree node, an l-tree, a WOTS chain (second preimage on a chain, or a value below a published one), the message digest, or (only for an index of 2^h or more) the root. In particular no bit of a genuine signature can be changed for free.", "quantifier": "every parameter set, key, sequence of sign calls, and accepted signed message", "why_tests_cant": "The claim is about every possible modification of every signature and every message; a test can only flip some bits.", "anchors": ["xmss_commons.c:xmssmt_core_sign_open", "xmss_commons.c:compute_root", "wots.c:wots_pk_from_sig", "xmss_core.c:xmssmt_core_sign"]}
{"id": "C59", "title": "Several threads may draw random bytes at the same time", "statement": "When any number of threads call randombytes concurrently, for every interleaving of their accesses to the shared descriptor and of the answers of the operating system: each call that returns has filled exactly its own buffer, with the bytes the device delivered to this thread, in order, and nothing outside; no thread ever writes outside its request; and no thread is ever stuck, as long as the device can be opened and delivers. (The descriptor itself may be opened more than once, and a call may use the descriptor value -1 for some reads, which fail and are repeated.)", "quantifier": "every number of threads, request sizes, interleaving, and pattern of short reads and failures", "why_tests_cant": "All schedules of threads and system call results.", "anchors": ["randombytes.c:randombytes"]}
{"id": "C60", "title": "Signing is memory safe whatever the secret key bytes are", "statement": "Whatever bytes a secret key buffer (or key file) of the right size holds behind its OID - corruption, a torn write, hostile content - sign never reads or writes outside the buffers it was given. An unknown OID is refused without any change.", "quantifier": "every parameter set, content of the secret key, message, both implementations and the signing tool", "why_tests_cant": "The contents are all byte strings of kilobytes; undefined behaviour may stay unnoticed in a test.", "anchors": ["xmss_core.c:xmssmt_core_sign", "xmss_core_fast.c:treehash_update", "xmss_core_fast.c:bds_state_update", "xmss_core_fast.c:xmssmt_deserialize_state", "ui/sign.c:main"]}
{"id": "C61", "title": "Exactly which BDS trade-off parameters are correct", "statement": "For one tree of height h >= 3 and any trade-off parameter k <= h, the fast implementation delivers the RFC 8391 signatures for every hash function, seed and history if and only if k <= 1 or h - k is even.  Otherwise one of the first 2^(h-k+1)+1 signatures carries a stale authentication node although the call returns 0.", "quantifier": "every height, every bds_k, every hash function, all seeds, buffers, messages and histories", "why_tests_cant": "the failure shows up only for parameters that no OID sets and only after exponentially many signatures; the positive half ranges over all histories.", "anchors": ["xmss_core_fast.c:bds_round", "xmss_core_fast.c:bds_treehash_update", "xmss_core_fast.c:xmss_core_sign", "params.c:xmss_xmssmt_initialize_params"]}
{"id": "C62", "title": "The shipped self tests pass whatever the random values", "statement": "Each program that make test runs returns 0 for all random seeds, messages, addresses and all contents of uninitialised memory, unless a flipped bit is accepted, in which case the accepted bytes contain an explicit break of the hash function.", "quantifier": "all outputs of randombytes, all uninitialised buffer contents, every registered OID, every number of signatures up to 2^h - 1", "why_tests_cant": "a test run is one draw of the random values; the statement is about all of them, and about what a passing run has established.", "anchors": ["test/wots.c:main", "test/xmss.c:main", "test/xmss_determinism.c:main", "test/xmss_max_signatures.c:main", "test/oid.c:main", "Makefile"]}
{"id": "C63", "title": "Signing twice with one index lets anyone forge", "statement": "If a key signs two messages with the same index (two continuations of one history, e.g. from a restored backup), then from the two signatures and the public key alone an explicit procedure computes, for every message whose digest has no digit below both signed digests, a signature that open accepts; with one signature only, no digest but the signed one qualifies.", "quantifier": "all histories, all pairs of messages, all forged messages and randomisers meeting the digit condition, every registered OID", "why_tests_cant": "an exploit on one pair of signatures shows one forgery; the statement says exactly which messages are given away by any pair, for every key.", "anchors": ["xmss.h:xmss_sign", "xmss_core.c:xmssmt_core_sign", "xmss_core_fast.c:xmss_core_sign", "wots.c:wots_sign", "xmss_commons.c:xmssmt_core_sign_open"]}
{"id": "C64", "title": "Buffers in one memory: the result depends on their contents only", "statement": "When the message and the signed message lie anywhere in one memory without the forbidden overlaps, sign and open give the same return value, length, key and output bytes as on separate buffers and change no byte outside the output buffer.  Forbidden are, for sign: an overlap of the message with the place of its copy behind the signature other than being that place (simple build), or with any part of the output but that (fast build); for open: any overlap of the output buffer with the signed message.", "quantifier": "all memories, all placements of the two buffers, every key, index, message and registered OID, both builds", "why_tests_cant": "a test uses a few fixed arrays; whether neighbouring or shared memory is read or written depends on the placement.", "anchors": ["xmss.h:xmss_sign", "xmss.h:xmss_sign_open", "xmss_core.c:xmssmt_core_sign", "xmss_core_fast.c:xmss_core_sign", "xmss_core_fast.c:xmssmt_core_sign", "xmss_commons.c:xmssmt_core_sign_open", "hash.c:hash_message"]}
{"id": "C65", "title": "Signing and opening in place", "statement": "sign and open called with m == sm (or, for open, m == sm + sig_bytes), as the interface does not forbid, give the result of separate buffers.", "quantifier": "all memories, keys, indices, messages not longer than a signature, every registered OID, both builds", "why_tests_cant": "whether the overwritten bytes are still needed depends on the message length, the index and the hash values.", "anchors": ["xmss.h:xmss_sign", "xmss.h:xmss_sign_open", "xmss_core.c:xmssmt_core_sign", "xmss_core_fast.c:xmss_core_sign", "xmss_core_fast.c:xmssmt_core_sign", "xmss_commons.c:xmssmt_core_sign_open", "hash.c:hash_message"]}
{"id": "C66", "title": "Keys of the other family are refused", "statement": "The xmss_* functions given a key of xmssmt_keypair, and the xmssmt_* functions given a key of xmss_keypair, refuse it (return -1) and change nothing.", "quantifier": "every key of either family, every registered OID, every index, message and buffer", "why_tests_cant": "the tests call each function with keys of its own family only; what happens otherwise depends on the OID, the index and the key bytes.", "anchors": ["xmss.c:xmss_sign", "xmss.c:xmss_sign_open", "xmss.c:xmssmt_sign", "xmss.c:xmssmt_sign_open", "params.c:xmss_parse_oid", "params.c:xmssmt_parse_oid", "xmss_core.c:xmssmt_core_sign"]}
{"id": "C67", "title": "Programs of the two builds can share a key", "statement": "A secret key may be used in turn by programs linked with the simple and with the fast implementation: whatever the order of the calls, no index is used twice, every signature returned with 0 is accepted by open, and a key of one build is accepted by the other.", "quantifier": "every parameter set, every key, every sequence of sign calls each made by either build, every message", "why_tests_cant": "each test program is linked with one of the implementations only; the orders of calls are exponentially many.", "anchors": ["xmss_core.c:xmssmt_core_sign", "xmss_core_fast.c:xmss_core_sign", "xmss_core_fast.c:xmssmt_core_sign", "xmss_core_fast.c:xmssmt_deserialize_state", "Makefile"]}
{"id": "C68", "title": "The test vector generator prints the vectors of the standards", "statement": "test/vectors prints 21 lines, for each of the seven hash functions one for WOTS+, one for XMSS^MT and one for XMSS; each line shows the 80-bit SHAKE128 fingerprints of the public key and of the signature with the middle index (for WOTS+: of public key, signature and L-tree root) that RFC 8391 and SP 800-208 define for the fixed seeds, message and address words of the program, whatever the uninitialised buffers contain.", "quantifier": "every content of uninitialised memory, every SHA-2 implementation with outputs of the right length, every one of the 21 lines; the function behind the lines for every parameter set", "why_tests_cant": "the program has no expected values to compare with: its output is what other implementations compare to.", "anchors": ["test/vectors.c:vectors_xmss", "test/vectors.c:vectors_wots", "test/vectors.c:print_hash", "test/vectors.c:main"]}
{"id": "C69", "title": "The benchmark reports the median and the average of the durations and no false verification errors", "statement": "test/speed exits with 0 on a correct library, and the figures printed for signing and verifying are a median and the rounded mean of the durations between consecutive readings of the cycle counter.", "quantifier": "every parameter set whose tree states fit (d <= h'/2 + 2), every number of signatures from 2 to 2^h - 1, every random and uninitialised content, every nondecreasing sequence of readings", "why_tests_cant": "the readings differ from run to run and nothing checks the printed figures.", "anchors": ["test/speed.c:main", "test/speed.c:print_results", "test/speed.c:median", "test/speed.c:average", "test/speed.c:cmp_llu"]}
{"id": "C70", "title": "Threads may sign with one key in memory if they take turns, and only then", "statement": "When several threads of a program sign with the same secret key buffer, no one-time key is used twice.", "quantifier": "every parameter set, every key, any number of threads, all messages, every schedule of the accesses to the bytes of the key", "why_tests_cant": "whether a test sees the collision depends on the schedule; a run that shows none says nothing about the others.", "anchors": ["xmss_core.c:xmssmt_core_sign", "utils.c:bytes_to_ull", "utils.c:ull_to_bytes", "xmss.c:xmss_sign", "xmss.c:xmssmt_sign"]}
{"id": "C71", "title": "The secret seeds are used only as keys of the pseudorandom functions", "statement": "Public keys and signatures depend on SK_SEED and SK_PRF only through the values of PRF_keygen and PRF under these keys: replacing the seeds, and the hash function where an outsider cannot evaluate it, by others with the same pseudorandom values changes no output byte.", "quantifier": "every parameter set, both implementations, all pairs of secret seeds and hash functions, every history of up to 2^h - 1 signatures", "why_tests_cant": "a test sees the output for some seeds; that no other use of the seeds enters the output is a statement about pairs of runs.", "anchors": ["xmss_core.c:xmssmt_core_sign", "xmss_core.c:xmssmt_core_seed_keypair", "xmss_core_fast.c:xmssmt_core_sign", "wots.c:expand_seed", "hash.c:prf", "hash.c:prf_keygen"]}
{"id": "C72", "title": "How many hash calls each API function makes", "statement": "Key generation makes the same sequence of hash calls for all seeds: those for one tree.  Verification of any bytes makes at most 1 + d(3 len(w-1) + 4(len-1) + 4h/d) calls, signing at most 2 + d(len + 3 len(w-1) + calls for one tree), and none with a used-up key; the sequence of input lengths is exactly the one the algorithms of RFC 8391 prescribe for the digests signed.", "quantifier": "every parameter set, all seeds, keys, indices, messages and signature bytes, accepted or rejected", "why_tests_cant": "the work for adversarially chosen signatures and the maximum over all digests cannot be found by running some.", "anchors": ["hash.c:core_hash", "xmss.c:xmss_keypair", "xmss.c:xmss_sign", "xmss.c:xmss_sign_open", "xmss.c:xmssmt_sign_open", "xmss_core.c:treehash", "wots.c:gen_chain"]}
{"id": "C73", "title": "The sequence of hash calls of a signer reveals no secret", "statement": "The number, order and input lengths of the hash calls of a sign call are determined by what anybody can compute from public key, message and signature: if verification of two signatures makes the same calls, so did the two signers, whatever their secret keys.  Signing and verifying together always take the same number of calls.", "quantifier": "every parameter set, all pairs of keys, indices below the last, messages and hash functions", "why_tests_cant": "it compares all pairs of runs; a timing test sees a few.", "anchors": ["hash.c:core_hash", "wots.c:wots_sign", "wots.c:gen_chain", "xmss_core.c:treehash", "xmss_core.c:xmssmt_core_sign"]}
{"id": "C74", "title": "How many hash calls the fast implementation makes", "statement": "Fast key generation makes exactly the calls for the first tree of every layer and the signatures of their roots.  Fast signing, on any key buffer whatsoever, with any stored traversal state, makes a number of hash calls fixed up to a constant by the number of leaves it computes: at least leaves * calls-per-leaf; at most that plus the listed constants; nothing with a used-up key.  For XMSS no sign call ever makes more than 2 + WOTS + (h/2+1) leaves + 4(h+2) calls, for XMSS^MT with d <= h'/2 + 1 the analogous bound holds in every history.", "quantifier": "every parameter set of the fast implementation, all seeds, key buffers, indices, messages, histories", "why_tests_cant": "the maximum over all 2^h states and over all damaged states cannot be measured by running some.", "anchors": ["xmss_core_fast.c:xmss_core_sign", "xmss_core_fast.c:xmssmt_core_sign", "xmss_core_fast.c:bds_round", "xmss_core_fast.c:bds_treehash_update", "xmss_core_fast.c:bds_state_update", "xmss_core_fast.c:xmssmt_core_seed_keypair", "hash.c:core_hash"]}
{"id": "C75", "title": "The traversal of the fast implementation depends on nothing secret", "statement": "In two histories of the fast implementation of the same length, with any two key pairs of the same parameter set, any hash functions and messages, calls with the same number make the same sequence of hash calls (number, order, input lengths) whenever the messages have the same length and their digests, and the roots of the trees that begin (in call number 2^20 of the sets 40/8 and 60/12: what is signed in place of the root of layer 3), take the same number of WOTS+ chain steps, which everybody can compute from the signatures.  Whether a history is defined at all depends on none of these.", "quantifier": "every parameter set of the fast implementation, all pairs of seeds, buffers, hash functions and histories (at height 40: of at most 2^40 calls, after which the index wraps around)", "why_tests_cant": "it compares all pairs of runs of up to 2^h calls.", "anchors": ["xmss_core_fast.c:xmss_core_sign", "xmss_core_fast.c:xmssmt_core_sign", "xmss_core_fast.c:bds_round", "xmss_core_fast.c:treehash_minheight_on_stack", "xmss_core_fast.c:bds_treehash_update", "hash.c:core_hash"]}
{"id": "C76", "title": "Every key of F and of H gets one input", "statement": "All strings that key generation and signing give to the hash function (simple implementation) are those of RFC 8391: PRF_keygen strings of the WOTS+ secret keys, F and H strings at places of the hypertree with the key and the masks for the address of that place and the values of RFC 8391 as inputs, the PRF strings for these keys and masks, and per signature one randomizer and one message string with that index and message; the length given to the hash function is the length of the string.  As a consequence (the multi-target argument of RFC 8391 section 9.2) over the whole life of a key no two different inputs are ever hashed under the same key of F or of H, unless two different addresses give the same PRF value.", "quantifier": "every parameter set, seed, buffer content, hash function and history of up to 2^h - 1 messages", "why_tests_cant": "a life of a key has up to 2^60 signatures and any pair of the strings hashed may collide in the key.", "anchors": ["xmss_core.c:xmssmt_core_sign", "xmss_core.c:xmssmt_core_seed_keypair", "xmss_core.c:treehash", "xmss_commons.c:gen_leaf_wots", "wots.c:wots_pkgen", "wots.c:wots_sign", "hash.c:thash_f", "hash.c:thash_h", "hash.c:prf", "hash.c:prf_keygen", "hash.c:hash_message"]}
{"id": "C77", "title": "The command line tools report failures of the system", "statement": "If a tool exits with status 0 then everything it had to do was done: the message (the signed message) was read completely, memory was available, and all bytes of the key pair, of the updated secret key and of the signed message were stored; otherwise the exit status is not 0 and no one-time key is used for two messages by going on with the stored files.", "quantifier": "every parameter set, key file, history of runs, message, content of fresh memory and combination of failures (argument count, fopen, fseek/ftell on a pipe, malloc, incomplete fread, incomplete fwrite)", "why_tests_cant": "a test does not make fwrite store only the first k bytes for every k, at every point of every history.", "anchors": ["ui/sign.c:main", "ui/open.c:main", "ui/keypair.c:main"]}
{"id": "C78", "title": "The fast implementation hashes only the strings of the standard", "statement": "With the fast implementation, all strings that key generation gives to the hash function are those of RFC 8391 for the trees of the key; those hashed by sign call j on message M_j are those for the trees of the key or the randomizer and message strings with index j and M_j, for all j below the last index 2^h - 1.  The stored traversal state never makes it hash a wrong or stale node value, although the state is prepared many calls before it is used.  With the last index it hashes the strings of the all-zero key, afterwards nothing.  So also with this implementation no two different inputs are ever hashed under the same key of F or of H, unless two addresses give the same PRF value.", "quantifier": "every parameter set, seed, buffer content, hash function and covered history (all histories, except the calls after 2^20 - 1 of the sets 40/8 and 60/12 and those after 2^40 at height 40)", "why_tests_cant": "what a call hashes depends on the traversal state left by all earlier calls, up to 2^60 of them.", "anchors": ["xmss_core_fast.c:xmss_core_sign", "xmss_core_fast.c:xmssmt_core_sign", "xmss_core_fast.c:xmss_core_keypair", "xmss_core_fast.c:xmssmt_core_keypair", "xmss_core_fast.c:bds_round", "xmss_core_fast.c:bds_treehash_update", "xmss_core_fast.c:bds_state_update", "xmss_core_fast.c:treehash_update", "xmss_core_fast.c:treehash_init"]}
{"id": "C79", "title": "A sign call can be cut off at any moment without an index being reused (fast implementation)", "statement": "With the secret key and the output buffer in persistent memory, any sequence of sign calls, each of them cut off at any moment or complete: with the fast implementation the stored index never goes back, nothing of a signature is in the output buffer before the index in the key has moved past it, and so no two calls that have put anything of a signature in the buffer use the same index; seeds and root stay as they are until the key is exhausted.  With the simple implementation this fails: it stores the low byte of the new index first, so a crash at an index that is 255 modulo 256 sets the key back by 255 indices, and the next calls repeat them; it holds if no call is cut off at such an index.", "quantifier": "every parameter set except height 40, key bytes, buffers, messages, hash function, number of calls, and every point at which each of them is cut off", "why_tests_cant": "a test runs calls to the end; the damage depends on where the call stops and on the index", "anchors": ["xmss_core.c:xmssmt_core_sign", "xmss_core_fast.c:xmss_core_sign", "xmss_core_fast.c:xmssmt_core_sign", "utils.c:ull_to_bytes"]}
{"id": "C80", "title": "Shares of a key: writing into the index field", "statement": "The index field of a secret key is all that a sign call changes until the key is exhausted: the key after n calls is the generated key with n written into the field.  So copies of a generated key whose index fields are set to the starts of disjoint ranges can be used independently: every call succeeds, its signature opens and is the very signature one holder of the key would have made at that index, and no two calls of all holders use the same index.  Two copies whose ranges overlap reuse an index, and a key whose field is set back makes every past signature again.  With the fast implementation the field cannot be written: the traversal state in the key belongs to the old index, and the signatures made do not open although the call returns 0.", "quantifier": "every parameter set, seed, hash function, message, buffer, history before the field is written, number and ranges of shares", "why_tests_cant": "a test has one key and a few indices; the claim is about every split of the index space, and every pair of indices for the failing implementation", "anchors": ["xmss_core.c:xmssmt_core_sign", "xmss_core_fast.c:xmss_core_sign", "xmss_core_fast.c:xmssmt_core_sign", "xmss_core_fast.c:xmss_deserialize_state", "xmss.c:xmss_sign"]}
{"id": "C81", "title": "One signature stands for one message, even under a malicious public key", "statement": "Suppose somebody chooses the public key (any root, any public seed), a signature and two different messages, and the open functions accept both messages with this one signature under this key.  Then the accepted bytes contain an explicit break of the hash function: a collision of the message hash between the two messages, a collision in an authentication path or an L-tree between the two verifications, or, on every hash chain where the two verified values have different digits, a chain value that returns to itself or a collision further up the chain.  Honest key generation is not assumed.", "quantifier": "every parameter set, hash function, public key (also one that key generation never makes), signature, pair of messages and output buffers; both builds", "why_tests_cant": "quantifies over all malicious keys, signatures and pairs of messages", "anchors": ["xmss.c:xmss_sign_open", "xmss.c:xmssmt_sign_open", "xmss_commons.c:xmssmt_core_sign_open", "wots.c:wots_pk_from_sig", "hash.c:hash_message"]}
{"id": "C82", "title": "A root belongs to one public key", "statement": "Two public keys with the same root that differ in the public seed, in the OID or in the family (with the same hash function and output length) cannot both verify anything: if open accepts any message with any signature under the one and any message with any signature under the other, the hash function has an explicit collision, at the two top nodes or at the keys of these nodes.  So storing or comparing the root identifies the whole public key.", "quantifier": "every pair of parameter sets with the same hash function (also one XMSS and one XMSSMT), every root, every pair of seeds, every pair of signatures and messages; honest key generation is not assumed", "why_tests_cant": "quantifies over all public keys, signatures and messages", "anchors": ["xmss.c:xmss_sign_open", "xmss.c:xmssmt_sign_open", "xmss_commons.c:xmssmt_core_sign_open", "hash.c:thash_h", "hash_address.c:set_tree_height"]}
{"id": "C83", "title": "The library works on real memory: pointers, C integers, uninitialised buffers", "statement": "Key generation, signing and verification called with pointers into a memory of separate objects (buffers anywhere inside objects, several buffers in one object, caller buffers uninitialised, local arrays created uninitialised on every call) have defined behaviour whenever the buffers have the announced sizes and do not overlap: no access outside an object, no read of an uninitialised byte, no overlapping memcpy, no over-wide shift, no loop that does not end, no unsigned wrap-around that changes a result; they return what the byte-string view of C05, C16-C26, C30 says and change no byte of the caller except the key (signing: only its index) and the output buffer.  The message to be signed may lie in the first sig_bytes bytes of the output buffer or in the key.  Every history of sign calls, with arbitrary reuse and change of all memory except the key between the calls, gives the results of C16-C19.  The following misuses are always undefined behaviour: an OID field from 0x80000000, fewer than sig_bytes bytes given to open, an output buffer that is too small, a message that partly overlaps the place its copy goes to.", "quantifier": "every accepted OID, hash function, memory (any number and sizes of objects, any initialised or uninitialised contents), all pointers, messages, keys (also exhausted and corrupted), signatures, histories; the simple build", "why_tests_cant": "quantifies over all memory layouts and contents", "anchors": ["xmss.c", "xmss_core.c", "xmss_commons.c", "wots.c", "hash.c", "utils.c"]}
{"id": "C84", "title": "The fast build works on real memory: traversal state inside the key, pointers, C integers", "statement": "Key generation, signing and verification of the program linked with the BDS implementation, called with pointers into a memory of separate objects, work in place on the traversal state that lies inside the secret key (pointers into the key for every part of the state, memcpy and memmove between them, fields read and written as big-endian bytes): whenever the byte-string view (C31-C35, C49-C51, C56) gives a call a meaning, for honest and for damaged keys (XMSSMT: damaged anywhere except that the leaf counter of a traversal state must not exceed the number of leaves of a tree), the call on memory is defined (no access outside an object, no read of an uninitialised byte, no overlapping memcpy, no over-wide shift) and has the same return value, length, key bytes and output; it changes no other byte of the caller.  Key generation followed by any history of sign calls, with arbitrary change of all memory except the key between the calls, gives for call j the signature RFC 8391 prescribes for index j.  Unlike the simple build, key generation reads the secret-key buffer before writing it: with an uninitialised buffer it is undefined.", "quantifier": "every accepted OID, hash function, memory, all pointers, messages, keys (honest, exhausted, corrupted), signatures, histories; the fast build", "why_tests_cant": "quantifies over all memory layouts and contents, keys and histories", "anchors": ["xmss.c", "xmss_core_fast.c", "xmss_commons.c", "wots.c", "hash.c", "utils.c"]}
{"id": "C85", "title": "SHAKE and core_hash on real memory: any overlap, any length, nothing else touched", "statement": "shake128 and shake256 called with any two pointers into memory and any two lengths write the SHAKE of FIPS 202 of the bytes that were at the input pointer when the call was made and change no other byte of the caller, however input and output overlap (also when they are equal) and also when either length is 0 or a multiple of the block length; the lanes, the padding block t[200] and the block d[] are read only where they were written, and every index is inside its array.  For lengths above 0 a call is defined exactly if every input byte is initialised and inside its object and the output has room.  core_hash, with the parameters of any accepted OID, likewise writes the n bytes of the hash function the parameters name.", "quantifier": "every memory, all pointers (overlapping or not), all lengths, all messages; every accepted OID", "why_tests_cant": "quantifies over all memories, lengths and overlaps", "anchors": ["fips202.c:shake128", "fips202.c:shake256", "fips202.c:keccak_absorb", "fips202.c:keccak_squeezeblocks", "fips202.c:load64", "fips202.c:store64", "hash.c:core_hash"]}
{"id": "C86", "title": "The command line tools on real memory: defined behaviour, except the fast key generation tool and exhausted keys", "statement": "ui/keypair, ui/sign and ui/open, with their uninitialised local arrays and malloced buffers, fread, fseek and fwrite, linked with the pointer-level library: in the simple build the tools are defined behaviour for every known name, every key-pair file with an index below 2^h and every message, and do what C41, C42, C44, C45 and C51 say (keys, outputs, key file, exit status), whatever uninitialised variables contain; so a generated key file can be used for 2^h - 1 runs of the sign tool, and the verification tools of both builds accept each output with the key file as it then is.  The same holds for the fast sign and verification tools.  Not so: the fast key generation tool reads its uninitialised secret-key buffer for every name (undefined behaviour), the sign tool of either build on an exhausted key passes uninitialised memory to fwrite, the tools use uninitialised bytes if the key file has fewer than 4 bytes or the signature file is shorter than a signature.", "quantifier": "all names, random bytes, key files, message files, signature files, contents of uninitialised memory and variables; any number of runs; both builds and families", "why_tests_cant": "quantifies over all files, histories and contents of uninitialised memory", "anchors": ["ui/keypair.c:main", "ui/sign.c:main", "ui/open.c:main", "Makefile:ui/xmss_%", "Makefile:ui/xmss_%_fast"]}
{"id": "C87", "title": "randombytes and key generation from the random device on real memory", "statement": "randombytes(x, xlen) with x pointing to xlen writable bytes is defined behaviour whatever open and read return; it returns only with the first xlen bytes that the device delivers, in order, stored at x, no other byte of memory changed and no byte of the device dropped; it waits exactly when too few bytes come or the device cannot be opened.  Key generation of both builds with the device is defined for separate buffers of the announced sizes (simple build: uninitialised ones; fast build: sk initialised, otherwise undefined behaviour): when it returns, the seeds are the device's first 3n bytes in the order SK_SEED, SK_PRF, PUB_SEED, the buffers hold the RFC 8391 key pair for them and nothing else is changed; it waits if fewer than 3n bytes come.  The key generation tool prints exactly such a pair.", "quantifier": "all memories, pointers, lengths, results of open and read, OIDs and tool arguments; both builds and families", "why_tests_cant": "quantifies over all courses of the device and all memories", "anchors": ["randombytes.c:randombytes", "xmss_core.c:xmss_core_keypair", "xmss_core.c:xmssmt_core_keypair", "xmss_core_fast.c:xmss_core_keypair", "xmss_core_fast.c:xmssmt_core_keypair", "xmss.c:xmss_keypair", "xmss.c:xmssmt_keypair", "ui/keypair.c:main"]}
{"id": "C88", "title": "One program, several keys: calls with different keys do not disturb each other", "statement": "A program that has any number of keys in separate buffers, of both families and any parameter sets, and signs with them in any order, reusing message and output buffers and changing the rest of its memory as it likes between the calls, gets from every call the signature that RFC 8391 prescribes for the key and the index it has by the earlier calls with this key alone; every other key stays as it was, and every key uses each index once, as long as no key is used up.  Both builds.  The keys may be made by the program itself, before or between the signatures: key generation returns 0, leaves the key pair and disturbs no key that is in use.  In between it may open any signed message: the call returns 0 and the message exactly when RFC 8391 accepts the signature, and disturbs no key either.", "quantifier": "all sets of keys, orders of the calls, memories, buffers and messages; any number of calls", "why_tests_cant": "quantifies over all numbers of keys and all interleavings of calls", "anchors": ["xmss.c:xmss_keypair", "xmss.c:xmssmt_keypair", "xmss.c:xmss_sign", "xmss.c:xmssmt_sign", "xmss.c:xmss_sign_open", "xmss.c:xmssmt_sign_open", "xmss_core.c:xmssmt_core_sign", "xmss_core_fast.c:xmss_core_sign", "xmss_core_fast.c:xmssmt_core_sign"]}
{"id": "C89", "title": "The project's test programs have no undefined behaviour with the simple core, and always do with the fast one", "statement": "test/wots, test/xmss_determinism, test/xmss and test/xmssmt, whose arrays and malloc'ed buffers start out uninitialised, are defined behaviour for all random values and return 0 (test/xmss and test/xmssmt: or -1, having found a break of the hash function); test/xmss_fast, test/xmssmt_fast and the two maxsigs programs have undefined behaviour in every run, because key generation of the fast implementation reads the uninitialised secret-key array; so has test/speed.  test/vectors, whose arrays are uninitialised too, is defined behaviour and prints the lines that the standards prescribe (C68).", "quantifier": "all random values, all numbers of signatures up to 2^h - 1, all parameter sets in place of the fixed one, both values of XMSS_TEST_INVALIDSIG", "why_tests_cant": "the programs are the tests: a run that passes says nothing about undefined behaviour or about other random values", "anchors": ["test/vectors.c:vectors_xmss", "test/vectors.c:vectors_wots", "test/speed.c:main", "test/xmss.c:main", "test/xmss_determinism.c:main", "test/xmss_max_signatures.c:main", "test/wots.c:main", "xmss_core_fast.c:xmss_core_keypair"]}
