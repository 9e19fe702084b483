# Formal model of XMSS/xmss-reference in Lean 4

## Trusted base

* Lean 4.33.0's kernel; axioms at most `propext`, `Classical.choice`, `Quot.sound` (checked by `vcheck`, which
  replays every module through the kernel and lists the axioms).  No axioms of our own, no `native_decide`, no
  `bv_decide`.
* The reading of the C code: every definition of the model cites file and lines in /repo.  The C code is not run.
* External primitives, as universally quantified parameters: OpenSSL's `SHA256`, `SHA512` (`Prims`: functions on byte
  lists with 32/64 byte results).  SHAKE is *not* a parameter: fips202.c is modelled.
* C integer model: `unsigned char` = 8 bit, `int`/`unsigned`/`uint32_t` = 32 bit, `long long`/`unsigned long` =
  64 bit (LP64), `char` signed (x86-64).

## Modelling decisions

* Byte strings are `List UInt8`.  Internal `len*n` arrays of n-byte nodes are lists of nodes; the caller-visible
  buffers `sk`, `pk`, `sm`, `m` are flat byte lists accessed through offset-checked read/write operations
  (`rd`, `wr`); an access outside a buffer is **undefined behaviour**, the distinct outcome `none`.
  Other UB that is modelled: reads of > 8 bytes by `bytes_to_ull` (shift >= 64), `1ULL << 64`, `byte << 24` into the
  sign bit of `int` in the OID decoding of xmss.c, use of hash output after an unsupported `core_hash`.
* Functions that write through pointers return the new value; the hash address `uint32_t addr[8]` that C functions
  mutate is threaded through (so a forgotten reset of a stale field is visible in the model).
* Unsigned wrap-around is modelled where it happens (`smlen - sig_bytes`, `updates--`, `char` return of
  `bds_treehash_update`, truncation of the index to `index_bytes` bytes).
* **Pointers.**  In Model/Alias (C64, C65) `m` and `sm` are offsets into one memory and may overlap; `memcpy` of overlapping
  regions is undefined (`none`), except that copying a region onto itself changes nothing.  Everywhere else the buffers are
  separate.  Keys never overlap other buffers.
* Time, allocation failure, stack exhaustion by VLAs, compiler behaviour are not modelled.
* The simple implementation (xmss_core.c) and the fast one (xmss_core_fast.c) are both modelled, on top of the same
  models of xmss_commons.c, wots.c, hash.c, hash_address.c, utils.c, params.c and xmss.c.
* **Fast implementation.**  A `bds_state` is a record of lists of nodes and scalars; its serialisation into the secret
  key and back is modelled byte by byte (C31).  Extra ghost data: a counter `leaves` of leaves computed (for C35); it is
  never read by the code.  Accessing an array of a state outside that array counts as undefined behaviour (`none`),
  although for the arrays that point into the secret key (as in C34_fails) the C write still lands inside the key buffer.
  Local arrays which C leaves uninitialised (the local treehash stack of key generation) start as zeros; the proofs do not
  depend on it for the sets covered.  `char` is signed (return value of `bds_treehash_update`).
* **Uninitialised caller data** are universally quantified: the buffers `sm`, `m`, `sk`, `pk` before the calls, fresh
  `malloc` memory (`Fresh junk`), the variable `smlen` of ui/sign.c.
* **randombytes.c** is a machine driven by an arbitrary sequence of results of `open` and `read`; `sleep` is a no-op.
  KeygenOs composes it with key generation: key generation reads its bytes from the machine; in the fast core the two
  `randombytes` calls are made before the rest of the core runs (nothing in between depends on them or touches those
  bytes).
* **Damaged traversal states** (C56): the counters of a deserialised state are natural numbers; the C fields hold what was
  stored (1 or 4 bytes), and every use of a level outside the tree or of an offset outside the stack is undefined in the
  model (as it is in C), so for the OID sets no counter overflows its C type in a defined call.  Node values for a stored
  next_leaf >= 2^31 may differ (shift of a negative int); C56 does not mention them.
* **Threads that sign with one key** (Model/SignThreads, C70): memory is sequentially consistent and every access to a byte of
  the index is one step (in C11 the unsynchronised accesses are a data race, hence undefined; the model says what byte accesses
  of the machine do); the four seeds, which only the deletion of the key changes, are read in one step.
* **Pointer-level model** (Model/Low, C83): the simple build once more, on an explicit memory.  An object is a list of bytes,
  each initialised or not; a pointer is an object and an offset; local arrays are objects that exist during the call;
  `unsigned` arithmetic is reduced where C does it; `while` loops have fuel whose exhaustion is undefined, so termination
  is proved.  Simplifications: addresses (`uint32_t addr[8]`) and the `int`/`unsigned` arrays `lengths`, `heights` are
  values outside memory (bounds and initialisation of the latter are checked); computing a pointer past an object is not
  an error, only accessing it (except below its start); `memcpy` onto itself is tolerated (wots.c calls gen_chain with
  out == in).  fips202.c is part of it (C85): the state `s[25]` is an array of lanes that may be uninitialised, the block buffers
  `t` and `d` are objects, only the arithmetic of the permutation (on local variables) is taken from the first model; OpenSSL's
  SHA-2 reads all its input and then writes.  C83_*_refines and C84_sign_refines connect it to the first model.
  Model/LowUi (C86) puts the tools of ui/ on this memory, with open files that have a position.
  Model/LowRandom (C87) puts randombytes and key generation with the device on it.
  Model/LowTest and Model/LowVectors (C89) put the test programs, test/vectors and test/speed on it.
* **ui/*.c**: files are byte lists; `fread` of a missing part is a failure exactly where the code checks for it;
  stdio buffering is a transition system (Model/Ui `IoStep`) in which a buffered stream may be passed to the operating
  system in any number of pieces, the point where stdout may be passed on being a parameter (`mayFlush`).  A crash is
  stopping at an arbitrary state.  Concurrency (Model/UiConcurrent): any interleaving of the two steps "read key file and
  message" and "write key file and output"; finer interleavings exist in reality, so the positive part of C52 is only
  claimed for these.  Failures of the system (argc, `malloc`, `fseek`, short `fread` and `fwrite`) are in Model/UiErrors (C77); the other
  properties of the tools are about runs without them.  The messages on stderr are not modelled.

## What is modelled and what is not

Modelled: params.c, utils.c, hash_address.c, hash.c, fips202.c (shake128, shake256 and what they call), wots.c,
xmss_commons.c, xmss_core.c, xmss_core_fast.c, xmss.c, randombytes.c, ui/keypair.c, ui/sign.c, ui/open.c (and their
fast builds), test/wots.c, test/xmss.c, test/xmss_determinism.c, test/xmss_max_signatures.c, test/oid.c, test/vectors.c, test/speed.c (exit code and figures; see Model/Speed).  Not modelled: OpenSSL's SHA-2 (parameter `Prims`), the Makefile (but see C62).

## Files

* `Model/` the code, one file per C file or group: Bytes (buffers), Params, Address, Hash, Keccak (fips202.c), Wots, Tree
  (xmss_commons.c, treehash), Core (xmss_core.c), Api (xmss.c), Alias (the API on one memory), Bds, FastCore (xmss_core_fast.c), RandomBytes, KeygenOs, SelfTest (test/*.c), Vectors (test/vectors.c), Speed (test/speed.c),
  Low (the simple build with pointers and C integers), Ui, UiFast, UiConcurrent, UiCrash, SignThreads (threads calling sign), Trace and TraceFast (the two implementations with a record of their hash calls).
* `Spec/` independent specifications: Rfc8391 (algorithms of the RFC over an abstract suite), Fips202 (bit level
  Keccak/SHAKE), Registry and Standard (tables of RFC 8391 and SP 800-208), Keys and FastKeys (layout of the keys), AnyAddr (WOTS+ and L-tree of the RFC under an arbitrary address head), Calls (the hash calls of the algorithms), Memory (what memory holds, for C83).
* `Proof/` lemmas.  Bytes .. Verify: simple implementation refines the RFC.  Bds*: one BDS tree (build, round, scheduler,
  stack).  Fast*: fast XMSS.  Low*: Model/Low refines the RFC.  Mt*: fast XMSS^MT; MtBad*: its failure for 40/8 and 60/12.
* `Props/` the theorems named in MANIFEST.json with their non-vacuity examples; Props/Toy.lean is a toy hash suite with
  which concrete cases are evaluated by the kernel.
* `tools/` generators of properties.jsonl and MANIFEST.json, the mutation runner and its log writer.
* `seeded/LOG.jsonl` one line per wrong program tried.

## Findings (all proved, see MANIFEST.json)

A property marked "partial" is, unless said otherwise, false of the code as it is; the theorem names give the refutation
and the largest part that holds.

* C17 the last signature (index 2^h-1) is computed after the key has been wiped: it does not depend on the key and
  does not verify; in the fast build its authentication path is zero as well (C50).
* C18/C19/C50 height 40: five index bytes cannot hold 2^40; after the last signature the index wraps to 0.
* C21/C44 `open` on input shorter than sig_bytes is undefined behaviour; xmss_open passes such files on.
* C25 a rejected message stays in the output buffer at offset sig_bytes.
* C29 no range check of the index in verification.
* C33/C34/C35 fast XMSS^MT with d > h'/2+2 (40/8, 60/12) emits a wrong node at index 2^20 and later writes behind the
  node stack; the number of leaves per signature exceeds d+2 for 20/4, 40/8, 60/12.
* C36 an odd `tree_height - bds_k` with `bds_k >= 2` is wrong (no OID uses it; with tree height 2 the code even reads
  stack slot 3 of 3).
* C42/C52/C55 the signing tool: signature may be out before the key file is updated; no file locking; a torn index write
  can skip 256^i - 1 indices, and at height 40 revive a key at index 2^32-1.
* C57 fast build: a crash between index and traversal state makes the tool emit signatures with a stale authentication path.
* C59 randombytes: the check of the static descriptor is not synchronised: two threads can both open the device (one descriptor leaks), and a failing open in one thread can make another read from descriptor -1 (the read fails and is repeated). The filled buffers are right in all interleavings, if the accesses to the descriptor are atomic (trusted: the model is sequentially consistent; formally it is a C data race).
* C43 the signing tool ignores the return code of sign: exit 0 and a garbage "signature" for an exhausted key.
* C47 full_height 64 is a shift by 64 in every call.
* C07 the checksum shift for w = 256 loses bits.
* C60 fast build: `stackoffset`, `stackusage` and instance fields are read from the secret key without checks; a damaged key (file) makes `sign` write at a distance of up to 4 GB from the node stack.
* C61 for `bds_k >= 2` and odd `tree_height - bds_k` the scheduler always misses a deadline within the first 2^(h-k+1) leaves; the signature still returns 0
* C62 `test/xmss_fast` (built with `-DXMSS_SIGNATURES=1024` for height 10) checks the signature that is made from the deleted key: it fails unless a byte string that does not depend on the key is accepted; `test/maxsigsxmss` runs over the same signature without opening it and passes
* C77: the tools check argument count, fopen and the OID, nothing else.  sign exits with status 0 when the updated key could not be written (full disk), and its signature is then followed by another one with the same index; when only a part of the signature was written; and when the message could not be read, in which case uninitialised memory is signed.
* C79: the simple implementation stores the new index with ull_to_bytes, low byte first.  If the key is in persistent memory and the process dies between two of these byte stores at an index that is 255 modulo 256, the stored index goes back by 255 and the next calls reuse indices.  The fast implementation stores the high byte first and only loses indices.
* C80: a key of the fast implementation cannot be shared by index ranges (or moved forward to skip indices): the index field and the traversal state must agree, nothing checks that they do, the call returns 0 and its signature does not verify.
* C84 (fast build, key generation): xmss_core_keypair and xmssmt_core_keypair call xmssmt_deserialize_state on the secret-key buffer before anything has been written to it, so a caller that passes an uninitialised buffer (as ui/keypair.c does) makes the library read uninitialised bytes; the values read are overwritten before they matter.
* C86_keypair_fast (ui/keypair.c:34-42 with xmss_core_fast.c:548, 741): the fast key generation tool passes an uninitialised local array as sk, and keypair deserialises the traversal state from it before writing: undefined behaviour for every name.  C86_sign: on an exhausted key the sign tool ignores the return value and writes the uninitialised malloced buffer to stdout (sign.c:90-94).
**Signing is not thread safe (C70).**  The index is read at line 209 and written back at line 239 of xmss_core.c, byte by byte, without a lock.  Two threads with one key in memory can sign with the same index (`C70_race`), or with an index used long ago, after which the stored index is rolled back by 254 (`C70_torn`).  Neither xmss.h nor the README says that calls must be serialised.
**The benchmark's median is off by one entry (C69).**  `print_results` passes all `tlen` entries to `median`, of which only `tlen - 1` are durations; the last is a raw counter value.  For the default of 16 signatures the printed median is the mean of the median and the next larger duration (`C69_median_even`, `C69_median_fails`); for 2 signatures it is about half the counter value (`C69_two_readings`).  Only the last of the signatures is ever opened.
**A key shared by the two builds gives invalid signatures (C67).**  The simple build advances the index of a fast key but not its traversal state, and returns 0; the next signature of the fast build carries the authentication path of the leaf before and is rejected (`C67_fails`).  No index is used twice (`C67_mixed_indices`).  The fast build reads a key of the simple build behind its end (`C67_simple_key_too_short`).
**Keys of the two families are confused (C66).**  All 21 XMSS OIDs are also XMSS^MT OIDs and `xmss.c` looks at nothing else.  `xmssmt_sign` with an XMSS key returns 0 and skips 256 signatures (OIDs 1, 2, 17, 18: `C66_fails`; 10 likewise), increments bytes of SK_SEED (OIDs 4-6: `C66_changes_seed`), or reads behind the end of the key (the other 13: `C66_cases`); `xmss_sign` with an XMSS^MT key likewise, and it may delete the key (`C66_deletes_key`), leaving an index from which `xmssmt_sign` goes on to sign with an all-zero key (`C66_deleted_key_signs`).
**Signing in place works in one build only (C65).**  `xmss_sign` / `xmssmt_sign` with `m == sm` (message not longer than a signature) is correct in the simple build; the fast build copies the message a second time after the signature has been written over it (xmss_core_fast.c:713, 982), so the output contains the beginning of the signature instead of the message, with return value 0 (`C65_fast_in_place_fails`).
**Opening in place (C65).**  `xmss_sign_open` with `m == sm` writes the prefix of the message hash over the last authentication path nodes before it reads them (xmss_commons.c:166-172): honest signatures are rejected and destroyed (`C65_in_place_rejects`, `C65_in_place_fails`).  With `m == sm + sig_bytes` the return value is right, but for messages longer than `sig_bytes - padding_len - 3n` the message returned is overwritten (`C65_behind_fails`).  xmss.h does not forbid either.
* Not a theorem: xmss.h documents the public key as PUB_SEED || root, the code stores root || PUB_SEED; the serialised
  scalars of the fast states survive the wipe in the last call of the fast implementation (they are not secret).

## Plan per property

| id | modelled | proof idea |
|----|----------|------------|
| C01-C03 | params.c: tables as functions on strings / 32-bit values | total case split over the finite tables, general arithmetic for len_2 |
| C04 | utils.c | induction on the length |
| C05, C30 | xmss.c wrappers, key layout | list algebra over the buffer model |
| C06, C07 | wots.c base_w, checksum, chain_lengths | digit lemmas; checksum counting argument; w=256: refuted by a witness |
| C08, C09 | wots.c | chain composition; collision extraction by induction along the chain |
| C10, C11 | hash_address.c, hash.c | injectivity of serialisation |
| C12 | hash.c core_hash, fips202.c | table + length lemmas |
| C13 | xmss_core.c treehash | stack invariant = binary representation of the number of leaves consumed |
| C14 | xmss_commons.c l_tree | in-place row = functional row, strong induction |
| C15, C28 | compute_root | induction on height, explicit collision |
| C16 | sign and open on byte buffers | refinement to an RFC-style spec, then induction over layers |
| C17 | the same | **false of the code**: the key is wiped before it is used; negation proved |
| C18, C26, C27, C22 | state machine of sign calls | induction over the list of messages |
| C19 | same | **false for full_height = 40** (index field wraps to 0); negation and the partial theorem |
| C20, C21 | buffer model with UB | C20 proved; C21 **false** for smlen < sig_bytes; exact characterisation |
| C23, C46 | Spec module (RFC 8391) | refinement |
| C24, C25 | open | C24 proved; C25 **false** (copy of the message stays at offset sig_bytes) |
| C29 | open | **no range check in the code**: witness |
| C31 | (de)serialisation of BDS state | record-by-record round trip |
| C32, C34, C35, C36 | xmss_core_fast.c BDS | value invariants + deadline potential function for the treehash scheduler |
| C33 | xmssmt fast sign | layered budget argument; **false for tree_height 5 with d >= 5 (40/8, 60/12)** at index 2^20 |
| C37-C39 | fips202.c | lane code vs bit-level FIPS 202 spec; sponge by induction on blocks |
| C40 | randombytes.c | machine driven by an arbitrary sequence of read() results |
| C41-C45 | ui/*.c | file-level transition model; stdio buffers with arbitrary flush order for C42 |
| C47 | sign | `1ULL << 64` is UB; proved for the model |
| C48 | signing histories + open | reduction: an accepted signature that was not issued yields an explicit collision, chain preimage or hash target (case analysis over layers) |
| C49, C50 | fast histories | simulation by the simple implementation (C32, C33), verifier shared |
| C51 | ui/*.c and the core | composition of C41, C44, C45, C16 |
| C52 | Model/UiConcurrent | all interleavings; refuted by an explicit schedule for every key |
| C53 | Spec/Standard | table check per OID plus C23 instantiated |
| C54 | Model/KeygenOs | invariant of the read loop, list algebra |
| C55 | Model/UiCrash (both builds) | arithmetic of torn big-endian counters, induction over runs; the fast build via C56 |
| C56 | fast sign on arbitrary state bytes | every byte string of the right length decodes to some state; size invariants through one call; induction over calls |
| C57 | Model/UiCrash | simple build: C55's invariant on the final file, then C41/C44; fast build: refutation, stale traversal state (C57_fails_fast) |
| C58 | Props/StrongForgery | forgery reduction of C48 plus two binding lemmas: an accepted body that matches the honest leaf at each layer is the honest body or gives a collision in the path or in a chain |
| C59 | Model/RandomThreads (interleaving semantics of randombytes) | invariant per thread, induction on executions; progress from every reachable state; races as reachable states |
| C60 | Model/FastCore, Model/Bds | simple build: C20 for every content; fast build: explicit traversal states whose stack fill level sends the next node behind the key |
| C61 | xmss_core_fast.c BDS, any bds_k | positive half: deadline potential (C36); converse: counting of started and performed treehash updates over the first 2^(h-k+1) leaves, a missed deadline leaves the node of the previous start in the path |
| C62 | test/*.c (Model/SelfTest.lean): the loops with their state, for both builds | the loop invariant from the single-call theorems (C01-C33, C49, C50), the flipped bits by the reduction of C58 |
| C63 | two histories that differ in their last message (signAll), the attacker as a function of public data (Reuse.forge) | the forged WOTS part equals the honest one on the new digest (chains compose), so the verifier reaches the same tree root; C07 for the converse |
| C64 | Model/Alias.lean: the API with m and sm as offsets into one memory, memcpy undefined on overlap | memory algebra (reads and writes at disjoint addresses commute), then the results for separate buffers |
| C65 | the same model, m == sm and m == sm + sig_bytes | exact result of the overlapping call; C58's reduction and the toy hash for the rejections |
| C66 | the API model as it is, with the parser of the other family | locality of sign in the key buffer (longer buffer: rest untouched; shorter: undefined), then the description of a sign call for the key as the other family reads it; tables by kernel computation; the C29 reduction for open |
| C67 | histories in which every call names the build that makes it | simple calls: locality of sign in the key buffer (C66) and the sign call lemma; fast calls: the arbitrary-traversal-state theorem (C56); induction over the history; the refutation from the stale-state call of C57 |
| C68 | test/vectors.c with arbitrary uninitialised buffers; RFC WOTS+ and L-tree under an arbitrary address | refinement lemmas of wots.c and l_tree restated for arbitrary address heads (Proof/AnyAddr), the core lemmas of keygen and sign for the XMSS lines, the SHAKE128 theorem C38 for the fingerprints, induction over the OID loops |
| C69 | test/speed.c; the readings of the cycle counter are parameters, qsort is a sorting function | closed form of the difference loop, sortedness and permutation for the sorted array, the history theorem of the fast build (C53, C62) for the exit code |
| C70 | xmssmt_core_sign split into steps, one for each access to a byte of the key; a schedule is any list of thread numbers | loop lemmas for one thread, then: blocks of steps (with a lock), two explicit schedules (races), an invariant with a decreasing step count (every schedule) |
| C71 | the specification of RFC 8391 and the refinement theorems of both implementations | congruence of every function of the specification in the hash function and the seeds, then the history theorems |
| C72 | every function of the simple implementation again with a record of the calls of core_hash (Model/Trace) | the record erases to the function, and equals the list of calls in Spec/Calls, by induction over the loops; the lists are counted |
| C73 | as C72 | the digests of the layers are the ones the verifier recomputes; the number of chain steps of each layer can be read off the calls of the verifier |
| C74 | every function of the fast implementation again with a record of the calls of core_hash (Model/TraceFast) | erasure; potential argument (height of the stacks) over all loops of the traversal on arbitrary states |
| C75 | as C74, two runs side by side | relational invariant: the two states agree in all fields that decide what happens (offsets, levels, counters, completed flags); preserved by every function; roots signed at tree changes are the ones of RFC 8391 by the invariant of C33; for 40/8 and 60/12 by the invariant of C34_fails up to the undefined call, with the node of height 4 that is signed in place of a root in call 2^20; the last call and refused calls from the exact records of these calls |
| C76 | the functions of C72 again, recording the bytes given to core_hash (Model/Trace with another record type) | naturality of the record; Hoare triples `result and every recorded string` for every function, from the hash functions up to the API; injectivity of addresses |
| C77 | ui/*.c with an environment: argument count, fopen, fseek/ftell, malloc, short fread, short fwrite (Model/UiErrors) | case analysis of the runs, reduction to C41, C51 without failures; refutation for every generated key and history |
| C78 | the functions of C74 again, recording the bytes given to core_hash (Model/TraceFast with another record type) | Hoare triples `result and every recorded string` for every function of the traversal, using the invariants Ready and MtInv of C32/C33; induction over the history |
| C79 | xmssmt_core_sign (simple) as the step machine of C70, xmss_core_sign / xmssmt_core_sign (fast) as a step machine (Model/SignCrash): every byte of the deletion and of the index is a step; inside the rest of the call output buffer and traversal state are arbitrary | invariant of each machine over its steps, arithmetic of torn indices (C55), induction over the history; the machine run to its end equals the function (a function of the state that no step changes) |
| C80 | sign calls on a generated key into whose index field another number is written (setIndex, an action of the owner of the key) | simple: the key is OID, index and key material only, the C01 outcome from any start index; fast: the bytes behind the one-time signature depend on the traversal state only, so the signature for the wrong index carries the neighbour leaf of the right one; strong unforgeability reduction of C58 |
| C81 | the open functions on arbitrary root and seed | C23 turns acceptance into the RFC verification; two verifications of the same signature are followed from the top layer down: same parent, then same leaf, same WOTS key, same digits (checksum, C07) or a break |
| C82 | the open functions of both families on arbitrary root and seeds | C23; the string hashed for the top node contains a PRF value of the seed and the address (layer, height), and (layers, tree height) determine the parameter set within a hash group |
| C83 | Model/Low: the simple build on an explicit memory (objects of possibly uninitialised bytes, pointers = object + offset, local arrays allocated per call, unsigned arithmetic modulo 2^32/2^64, fuel for while loops) | bottom-up: for every function, its effect on memory is one store of the value the RFC specification (or first model) gives, under separation hypotheses; treehash and the buffers that are written piecemeal are described cell by cell (storeC); then composed and restated with Holds / OnlyIn (Spec/Memory) |
| C84 | Model/LowFast: xmss_core_fast.c on the memory of C83; a traversal state is a record of pointers into the secret key and the scalar fields the C struct holds | a relation Sim between a state of the first model and a record of pointers plus memory; every traversal function preserves it (Proof/LowFast*); deserialise, one call, serialise composed; then the histories of fast_history restated on memory; for XMSSMT the relation holds for all 2d-1 states at once (Sims) and is kept by deep_state_swap and by every round of the loop over the layers (Proof/LowFastMt*) |
| C85 | Model/Low: fips202.c on memory: lanes written or not, block buffers as local objects, byte-wise load64/store64, pointers that advance | each loop equals one load or one store of the value the first model gives (C38 connects that to FIPS 202); conversely a run that is defined has read all of its input |
| C86 | Model/LowUi: main of ui/keypair.c, sign.c and open.c on the memory of C83/C84: open files with positions, malloced and local buffers uninitialised, the library passed as a record | every tool reduced to its one library call on a memory with one object per buffer; C83/C84 describe that call, C41-C45 and C51 the byte-string tool; signing into an uninitialised buffer from two runs of C84 with different contents; induction over the runs |
| C87 | Model/LowRandom: randombytes.c on the memory of C83 with the device of C40, key generation with the device in both builds, the key generation tool | the loop on memory simulated step by step by the loop of C40 (induction on the reads); key generation with the device = key generation with the bytes drawn, then C83/C84 |
| C88 | the memory of C83/C84, a list of keys and a list of calls with the memory before each | induction on the calls: C83_sign / C84 for the key that signs, the frame (OnlyIn) for the others; Props/KeyProgram.lean: steps that make keys (C83_keypair, C84_keypair) and calls that verify (C82_verify) between the calls |
| C89 | Model/LowTest.lean, Model/LowVectors.lean: the mains of test/ on the memory of C83/C84, arrays uninitialised | simulation of each pass of the loop by the byte-string program of C62 (C83_sign, C83_open for the calls); fast (and test/speed): C84_undefined_keypair; test/vectors: Proof/Low* for the functions it calls, then C68 |
