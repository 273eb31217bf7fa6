# Formal model of liboprf in Lean 4

## Goal

Machine-checked proofs of the properties in `properties.jsonl` about the C code in `/repo/src`
(`oprf.c`, `toprf.c`, `dkg.c`, `mpmult.c`, `tp-dkg.c`, the Noise XK wrapper) and the Python layer.
The model is written function by function; each definition cites the file and lines it models.

## Modelling conventions

* Byte strings are `List UInt8`; fixed-size arrays are `Vector UInt8 n`. Scalars are 32-byte
  little-endian strings; only their canonical value lies below the group order `L`.
* A C function that can run into undefined behaviour returns `C α`, which is either `ok a` or
  `ub reason`. Out-of-bounds accesses, VLAs of non-positive size, null dereferences, use after free,
  double free and loops that never end are all `ub`. "Safe" always means: the result is not `ub`.
* `uint8_t` loop counters that can wrap are modelled with wrapping 8-bit arithmetic.
* Randomness, the clock and the success of `sodium_mlock` are parameters.
* Output buffers are passed in with arbitrary content where the code might leave parts unwritten.

## Trusted base

1. Lean's kernel and the axioms `propext`, `Classical.choice`, `Quot.sound` (per-theorem list in "Axioms of the property theorems").
2. The reading of the C code: the model is hand-written. Compiler, C library and hardware
   are not modelled. Constant time is stated for traces of the program text (C81-C83): branches, offsets of accesses and
   calls of libsodium with their lengths and return values; a Lean `if` without an event stands only for a check of
   undefined behaviour on public values, and libsodium is trusted to leak lengths and return values only. Erasing and locking of
   memory only in `Model/Residue.lean` (C72, without copies made by the compiler), for the state of a peer (C74) and for the
   primitives of the Noise library (C84, C85).
3. libsodium's documented behaviour (its source is not in the sandbox): see "libsodium assumptions".
4. ristretto255 is a group of prime order `L` with canonical 32-byte encodings, the identity being
   32 zero bytes. It enters as a structure `Ristretto`, not as an axiom; a concrete instance is given.
5. Hashes, signatures, HMAC, AEAD and X25519 enter as structures with the laws that are used.

### libsodium assumptions

* `scalar_random`: canonical scalar in `[1, L-1]`.
* `scalar_add/sub/mul`: result mod `L`, canonical, for arbitrary 32-byte inputs.
  `scalar_add` adds as 256-bit integers (carry dropped) before the reduction.
* `scalar_invert`: `x^(L-2) mod L`; returns -1 iff all 32 bytes are zero.
* `scalarmult_ristretto255(q,n,p)`: -1 and `q` untouched if `p` is not a canonical encoding; else bit 255 of
  `n` is cleared, `q` is written, and -1 is returned iff the result is the identity. `_base` likewise.
* `ristretto255_add`: -1 and output untouched if an operand is not a canonical encoding.
* `is_valid_point`: 1 iff canonical encoding (the identity is accepted).

## Plan per property

| id | property | what is modelled, how it is proved |
|---|---|---|
| C01 | OPRF output is a function of key and input only | Oprf model; theorem over all inputs/keys/blinds by module algebra over ZMod L. |
| C02 | Blinding hides the input perfectly | ExistsUnique over blinding scalars, from freeness of the action of ZMod L on non-identity elements. |
| C03 | expand_message_xmd is RFC 9380 expand_message_xmd | Separate RFC 9380 specification (list of blocks by recursion); the unrolled loop is proved equal to it for all lengths. |
| C04 | Finalize hashes an unambiguous encoding | Injectivity of the preimage function, by length-prefix decoding. |
| C05 | oprf_Evaluate fails exactly on bad elements or a zero key | iff characterisation of the return value over all byte strings. |
| C06 | oprf_Unblind inverts the blind or fails | iff characterisation plus inverse law. |
| C07 | The whole input is blinded | Violated for inputs over 255 bytes (length truncated to 8 bits): negation with witness, `_partial` for shorter inputs. |
| C08 | Evaluations compose multiplicatively | Equality of return code and output for all keys and elements. |
| C09 | create_shares deals points of one polynomial | Existence of a Mathlib polynomial; the 8-bit loop is modelled with wrap-around; n=255 and threshold<2 are separate UB results. |
| C10 | Any threshold-many shares reconstruct the secret | Lagrange interpolation from Mathlib; any list with distinct indexes. |
| C11 | Fewer than threshold shares reveal nothing | Unique coefficient vector, by interpolation through 0 and the coalition's points. The statistical distance that comes from never drawing 0 is bounded by counting (`Spec/Secrecy.lean`). |
| C12 | coeff is the Lagrange coefficient at zero | Equality with the product formula and with the interpolation identity. |
| C13 | thresholdmult recovers k*P | From C12 in the exponent. |
| C14 | thresholdmult does not depend on response order | Permutation invariance for arbitrary byte strings. |
| C15 | thresholdmult rejects malformed responses | Failure for all malformed lists. |
| C16 | toprf_Evaluate and thresholdcombine recover k*P | From C12 in the exponent. |
| C17 | thresholdcombine does not depend on response order or tags | Sum over a multiset. |
| C18 | thresholdcombine rejects malformed responses | Violated (return value of the point addition ignored): negation with witness, plus a `_partial` on what happens. |
| C19 | 3hashTDH with shares of zero equals plain evaluation | From C12 for k*alpha and z*H. |
| C20 | Threshold OPRF output equals single-server OPRF output | Composition of C01, C09, C13, C16. |
| C21 | Size arguments never cause undefined behaviour in the threshold functions | Totality: the result of each function is never the UB outcome inside the safe range, and is UB at the boundary (violation at n=255, threshold<2, response_len=0). |
| C22 | Honest DKG shares verify | Completeness of verification. |
| C23 | A verified DKG share lies on the committed polynomial | iff characterisation against the polynomial in the exponent. |
| C24 | dkg_verify_commitments reports exactly the bad dealers | Exact fails list if no commitment is malformed; violated otherwise (early return hides dealers): negation plus `_partial`. |
| C25 | DKG shares reconstruct the sum of the dealers' secrets | Sum of polynomials. |
| C26 | The DKG public key is determined by the commitments | Group equation. |
| C27 | A share that passes verification contributes the committed value | Violated for non-canonical shares: negation plus `_partial` for canonical ones. |
| C28 | Size arguments never cause undefined behaviour in the DKG functions | as C21. |
| C29 | invertedVDMmatrix returns the inverse Vandermonde matrix | Loop invariant of the elimination (PA=LU with in-place storage), non-singularity of the Vandermonde matrix. |
| C30 | Multiparty multiplication yields shares of the product | C29 plus degree counting. |
| C31 | toprf_mpc_mul_start validates its arguments | Decision table. |
| C32 | TP and peers agree on every message size | Equality of the size functions for all n,t and complaint matrices. |
| C33 | tpdkg_tp_input_size is the sum of tpdkg_tp_input_sizes | Sum over the sizes array. |
| C34 | Inputs or outputs of the wrong length are rejected | Case analysis on the step functions. |
| C35 | A received message is accepted iff it is fresh, correctly addressed and signed | iff characterisation of recv_msg. |
| C36 | Message bodies are authenticated | Violated (only the header is signed): negation; `_partial` for the header. |
| C37 | Timestamps never go backwards | Invariant by induction over message histories. |
| C38 | Every run ends | Step counter measure, induction over histories. |
| C39 | An error ends the run | Violated at TP step 6: negation; `_partial` for all other steps. |
| C40 | The TP routes pairwise messages to the right peer | Index lemma for the transposed copy loop. |
| C41 | Broadcasts deliver the same bytes to everyone | as C40. |
| C42 | The cheater log is bounded and complete | Invariant over the list of reports. |
| C43 | Recorded complaints are unique, in range and bounded | Invariants of the complaint loops of the trusted party and of the peers, over all histories. The peers do not check the accused: negation plus `_partial`. |
| C44 | Complaint verdicts are right | `ShareRight` in `Spec/Verdict.lean` states when the share behind a complaint is right; invariant of step 18 over all accused and all keys (`Proofs/Tp18.lean`), then the named peer is computed from the report. |
| C45 | Unanswered complaints are blamed on the accused | Violated: the report names the complainer (proved for every unanswered complaint). `_partial`: another report names the accused (counting argument over the revealed keys). |
| C46 | A peer obtains a share only from a confirmed run | Invariant over peer histories. |
| C47 | The TP confirms only when all transcripts agree | Characterisation of the final TP step (`C47_confirms_iff`); transcript as a function of the broadcast list. |
| C48 | An honest run succeeds and yields a shared key | Composition of exact results of every step of every party along the schedule of the test driver, for all n, t, randomness and clocks (`Spec/Honest.lean`, `Proofs/Honest*.lean`). Violated when the clock of a peer is behind that of the trusted party at its start: negation plus `_partial`. |
| C49 | TP message handling is memory safe | No UB outcome from any TP step for any input outside three cases; negations for these three. |
| C50 | Peer message handling is memory safe | No UB outcome along all histories from the start, by an invariant on pointers, lengths and complaints; violated by freed Noise sessions and unchecked numbers of complaints: negations from reachable histories plus `_partial`. |
| C51 | Protocol parameters are validated the same way by both sides | Decision tables; violated for t<2: negation plus `_partial`. |
| C52 | Every recorded cheater entry can be explained | `Recordable` lists all reports that a call can write (invariant over all handlers); finite table over all codes; negation for the codes in `Unhandled`. |
| C53 | The TP's verdict reaches every peer | `_partial` for success; negation for return value 3. |
| C54 | Noise XK sessions agree on keys and deliver messages | Run of the handshake over abstract DH and AEAD laws with concrete HMAC and HKDF; transport as a network of two sessions with arbitrary interleaving of sending and delivery (invariant by induction over events). |
| C55 | A Noise session never reuses a nonce and rejects out-of-turn calls | Induction over call histories: the counters are 0, 1, 2, ... A write out of turn is refused but sets the step to 4 (negation proved, `_partial` for the rest). |
| C56 | Message codec round-trips | Round-trip of the header codec. |
| C57 | The multiplexer returns each peer's own answer | Invariant of the loop of `gather` over all arrival schedules (`Proofs/Multiplexer.lean`); the last part holds only for filled slots (`_partial`), with negations for failed reads and closed connections. |
| C58 | The Python wrapper rejects arguments the C functions cannot handle | Model of the checks in front of each C function (`Model/Python.lean`), domains in `Spec/Python.lean`; per function: what reaches C, and that C handles its domain. Witnesses where a check is missing (`_violated`, `_partial`). |
| C59 | The handshake is Noise XK as specified | Equality with a token-by-token specification (`Spec/Noise.lean`). |
| C60 | A responder only talks to peers on its list | Invariant over call histories with arbitrary inputs. |
| C61 | Noise payloads keep the security level asked for | Case analysis over all states; the levels are listed in the specification. |
| C62 | The shares of the peers belong to one key | Whole histories of several peers and the trusted party with arbitrary messages of the others (`Spec/Agreement.lean`); invariants of the histories pin the inputs of steps 13, 15, 16, 19 and 20 (`Proofs/PeerCheck`, `Agreement`, `TpCheck`), and Feldman's equations give the polynomial. The collision of two transcript hashes is a disjunct of the conclusion. `_partial`, with negations for the three missing checks. |
| C63 | Reports of the trusted party have a ground; an honest peer is not named | An invariant of every handler ties each new report to a rejected message, a bad complaint or another hash (`Proofs/Grounds`); the grounds are listed in `Spec/Grounds.lean` without the handlers. A peer that sends nothing wrong is not named in any sequence of calls (induction), except for a complaint that the accused does not answer. `_partial`, the exception is defect C45 and has a witness. |
| C64 | A peer's answer to complaints is right | Exact description of what a successful call sends in steps 3, 4 and 7 (`Proofs/Defence`), composed over the five calls with what the calls in between keep; the messages are described in `Spec/Defence.lean` with the encoder of the specification. |
| C65 | A peer complains exactly about wrong shares | The list written by `dkg_verify_commitments` (induction over its loop) joined with the commitments of step 4 and the shares decrypted in step 5. `_partial` for the converse, with a run as witness for malformed commitments (defect of C24). |
| C66 | Noise devices and their peer lists are memory-safe and behave like lists | Heap of blocks with addresses (`Model/Device.lean`) refined to a list of peers (`Spec/Device.lean`) by a separation invariant over multisets of blocks (`Proofs/Device.lean`), induction over calls. The list operations, not the pointers, carry the rest. `_partial` and negation for `device_free`, which leaks the serialisation key and the peers and erases nothing. |
| C67 | Stored secrets of Noise devices and peers are restored as what they were | Round trips over the AEAD laws, on the heap; exact condition for opening. Negations: records of both kinds are exchangeable, and a record has no length. |
| C68 | Two Python programs that use the Noise wrapper can talk to each other | `python/pyoprf/noisexk.py` over the model of the sessions (`Model/PyNoise.lean`), with the ctypes conversions of `Model/Python.lean`. The session functions are reduced to C54's handshake; delivery is a simulation of the Python link (`Spec/PyNoise.lean`) by C54's net, by induction over the events. `_partial` because a length is passed modulo 2³²; negations also for a string as prologue, an unknown peer, `get_pubkey` too early, a responder that sends first, a short key (also in an array). |
| C69 | A peer that follows the protocol is not blamed | Reachable states of the trusted party together with one peer that runs the code, all other messages being arbitrary (`Spec/World.lean`). An invariant with one case per pair of steps of the two (`Proofs/WorldInv`, `WorldTp`, `WorldPeer`) gives the exact message in transit; it is then shown to be accepted (`Proofs/WorldFine`), and C63 says that a peer with accepted messages is not reported. `_partial` for the call that judges complaints; the negation is a run that is computed by the kernel call by call (`Proofs/WorldToy`). |
| C70 | Keys made by the distributed key generation serve the threshold OPRF | Composition of the property theorems of the parts: `Spec/Serve.lean` says what it means that shares answer for a key; C48 and C62 give shares on one polynomial, C32 the product, C13, C16 and C20 the evaluation, C01 the client. |
| C71 | A Noise session answers questions about itself correctly | The query functions on the session model with the two fields it lacked (`Model/Query.lean`); sequences of calls in `Spec/Query.lean`, induction over them with an invariant relating the state to the calls that succeeded. `_partial` and negation for the status of an unusable session. |
| C72 | Secrets do not stay on the stack | The functions once more in a state monad over their local buffers with contents and lock flag (`Model/Residue.lean`); each is proved to have the result of the model used elsewhere, and the buffers at the end are compared. Negations for what is left; the remaining bytes are shown to determine the secret. |
| C73 | The demonstration of the identity attack does what it says | `Model/Attack.lean` over the models of `oprf.c`; the output is the one under key 1. Negations for the banner on standard output and the reads beyond short arguments. |
| C74 | A peer does not keep its long-term key and erases its secrets | On the model of the peer: case analysis of the first call, frame theorem for the others, induction over calls. That the key is used once is non-interference: a run with another key differs in one signature only. `_partial` and negations for a failed first step and `tpdkg_peer_free`. |
| C75 | A dealer's messages tell a coalition of t-1 receivers nothing but the public value of the secret | `Spec/Secrecy.lean`: simulation (the commitments are computed from the first one and the shares by interpolation in the exponent) and a pairing of the coefficient vectors with a counted loss. |
| C76 | A multiplication tells a coalition of t-1 peers nothing about the factors | The same pairing, through `toprf_create_shares` (C11). |
| C77 | Answers with 3hashTDH tell no more than their combination | The polynomial of the shares of zero is solved for; uniqueness because a polynomial of degree below the number of servers is determined by its values. |
| C78 | Noise sessions on the heap do what sessions as values do, and leave nothing behind | `Model/SessionMem.lean` writes every buffer through pointers; `Spec/SessionMem.lean` is the same program on values. Separation-style triples per call, one representation relation for the device with all open sessions, induction over the program. Erasure is violated. |
| C79 | The Noise helpers of the key generation on the heap do what they do on values, and their leaks are counted exactly | `Model/PeerNoise.lean` is tp-dkg.c:157-365 on the heap of C78, `Model/Peer.lean` the same on values with a mark for freed pointers. Triples per helper; frames that keep freed addresses free (`Proofs/HeapKeeps.lean`) give undefined behaviour on the heap where the values have it. Induction over programs. |
| C80 | A peer's memory of Noise sessions is what its protocol calls leave, and its cleanup releases exactly the sessions | `Spec/PeerMem.lean` lists the calls of the helpers in each step. Triples per step handler (`Proofs/PeerMem.lean`), an invariant over calls that says which slots hold which kind of session (`Proofs/PeerMemRun.lean`), then C79 for the heap. |
| C81 | The control flow and the memory accesses of the OPRF do not depend on inputs, keys and random scalars | `Base/Trace.lean` adds events to the monad `C`; `Model/Timing.lean` is `oprf.c` again with its events; without them it is `Model/Oprf.lean` (`C81_model`). Two runs are related event by event. |
| C82 | The control flow and the memory accesses of the threshold functions do not depend on shares and secrets | The same for `toprf.c` and `mpmult.c`, `C82_model` for the agreement with the models used elsewhere. |
| C83 | The control flow and the memory accesses of the key generation do not depend on coefficients and shares | The same for `dkg.c`. |
| C84 | HMAC and HKDF of the Noise library are the published functions on memory and wipe what they derive | `Model/Prim.lean`: functions on an address space of bytes (no object, indeterminate, value) with the local arrays at a stack address. The theorems give the whole memory afterwards. `Spec/Prim.lean` has HMAC and HKDF as published. |
| C85 | The other primitives of the Noise library do on memory what the Noise specification says and leave their frames clean | As C84. |
| C86 | The check of the degree of a sharing in tests/mpmult.c accepts commitments to polynomials of degree at most t | `Model/Tests.lean` follows the accesses to the matrix with the row length that the parameter declares. The acceptance is an equation in the challenge; its polynomial is not 0, so it has at most t roots. |
| C87 | The test programs toprf.c, mpmult.c and dkg.c succeed for all random values | The programs as functions of the values drawn, on top of the models of the library; by the interpolation theorems of C13-C29. |
| C88 | The handshake messages of the Noise library work on memory as on values | `Model/PrimHs.lean` calls the primitives of `Model/Prim.lean`. `Spec/PrimHs.lean` has layouts of buffers that do not overlap. A simulation keeps the contents of each buffer; its end is the state of `Model/Noise.lean`. |
| C89 | The transport messages of the Noise library work on memory as on values | As C88; the theorems give the whole memory afterwards. |
| C90 | The file of authorised Noise keys is loaded as it is written | `Model/AuthKeys.lean` reads the bytes of the file through the buffer of `getline` and libsodium's base64 decoder; `Spec/AuthKeys.lean` writes files (encoder of RFC 4648 written independently). Induction over lines, on top of the refinement of C66. |
| C91 | The texts about cheaters name the right peers | `Model/Report.lean` renders the string. `Spec/Report.lean` reads decimal numbers from text; the theorem is that reading inverts writing, for each kind of text. |
| C92 | The states of the Python wrapper have the layout of the C structures | `Model/Layout.lean` lists the members on both sides and places them by the ABI rule; the placing is proved to be a layout for all structures, then the two concrete tables are compared. Addresses by arithmetic. |
| C93 | Connections of the multiplexer are open, checked and closed | `Model/Connection.lean`: a state machine with all sockets ever made; invariants over lists of calls. |
| C94 | The check of shares in the test of the key generation finds wrong shares | `Model/ShareCheck.lean` on top of `Model/Tests.lean` and `thresholdmult`. The specification `OnOne` is about polynomials; completeness by choosing shuffles that bring each share among the first `t`. |
| C95 | The test program of the key generation runs the protocol to a correct end | `Model/Driver.lean` on top of the models of trusted party and peers and of `Model/ShareCheck.lean`. The loops of `main` are related to the rounds of `Spec/Honest.lean`, so that the theorems about honest runs (C46-C48) apply; then C94. |
| C96 | The tests of the Python wrapper pass and test what they claim | `Model/PyTests.lean`: tests are programs over a record of functions (`Lib`), of which `real` is the wrapper of `Model/Python.lean`. The theorems about the tests are equations for all draws; the negations replace one function by an arbitrary one. |
| C97 | The test of the vectors accepts exactly the vectors of RFC 9497 | `Model/Vectors.lean` on top of `Model/Oprf.lean`; the specification is `Spec.oprf`. For the header a reader of C initialisers is the specification, and reading inverts writing. |
| C98 | The fuzzing programs call the library as it must be called | `Model/Fuzz.lean` on top of the starts of trusted party and peer (C51). The parser is related to the specification of messages `Spec/Wire.lean`. |
| C99 | The Python test of the raw key generation passes and detects wrong shares | `Model/PyDkg.lean`: the test as program over a record of functions (`DkgLib`), of which `realDkg` is the wrapper of `Model/Python.lean`. That five of the ten combinations suffice is a theorem about polynomials of degree less than 3 (`C99_shares`); the theorem about detection replaces `dkg_finish` by arbitrary shares. |
| C100 | The Python test of the key generation with a trusted party runs the protocol to a correct end | `Model/PyTpDkg.lean` on top of the models of trusted party and peers; test and example are one program with different checks of the shares. `Proofs/Sched.lean` shows that the loop of the test, which serves all parties in turns, goes through the rounds of `Spec/Honest.lean`; then C46-C48 and C99. |
| C101 | The test build with corrupted shares provokes exactly the intended complaints | `Model/Corrupt.lean`: the code under `UNITTEST_CORRUPT` that alters shares and adds complaints, on top of `verify_commitments`. The altered value differs modulo the order of the group because byte 1 changes, and then the check of Feldman fails. |
| C102 | The protocol is the one of the documentation | `Spec/Doc.lean` is written from docs/tp-dkg.txt alone and compared with the models of the code. The order of the fields of the announcement, and what the documentation leaves open, are taken from the code. |
| C103 | The Noise example accepts exactly the peers of its key file | `Model/XkExample.lean`: `main` of xk-ex.c with devices, sessions and messages as values, and the key file read as in C90. The handshake of C54 gives the accepted case. For the refused case the same handshake is run against a list of peers that has the key, and the third message is compared. |
| C104 | Several devices on one heap do not disturb each other | `Spec/Devices.lean`: programs as trees, each call followed by a function of its answer, on plain values and on the heap of C66 and C78. The heap is the disjoint union of the blocks of each device and those that released devices have left; a call on one device keeps the others as its frame. Induction on the program. The conversation combines this with C54. |
| C105 | The integer helpers of the Noise library compute what their names say | `Model/Karmel.lean`: the comparisons, the three implementations of 128 bits, byte order and unrolled loops of src/noise_xk/include/karmel, word by word with `BitVec`. The masks by the highest bit at any width, the rest through natural numbers; none of it by enumeration. |
| C106 | The Noise example uses only its own memory and releases it | `Model/XkMem.lean`: `main` of xk-ex.c on the heap of C66 and C78, with every allocation and release in the order of the source. Each message is a step of separation logic on the blocks of the two devices (C104); the course is that of C103, and the file is read as in C90; for every file and heap the result is that of the program on values (`C106_same`). Violated, since not everything is released: negations and exact number of blocks left. |
| C107 | Fuzzing of the key generation tries every test case from the same state to the end of the protocol | `Model/FuzzLoop.lean`: both variants of `fuzz_loop` of tests/tp-dkg.c and the main loops around them, with the functions of the library as a parameter, since this build leaves out checks. Induction on the list of cases. Violated for steps 1 and 4: the invariant of the loop after a case is that the stale output is shorter than the messages of the next step. `Model/FuzzTp.lean` is the trusted party of the library as it is built for fuzzing, without the checks of times, signatures and the MAC; `C107_fuzzing_violated` states the violation for it, without an invariant on the states and for arbitrary peers. |
| C108 | Built for fuzzing, `recv_msg` accepts what it accepts otherwise, and differs only in the time and the signature | `Model/FuzzRecv.lean`: `recv_msg` without the lines that this build leaves out. The two functions are followed side by side, check by check; the header is read with the encoding of C35. The other two places where the build leaves out a check (lines 800 and 1412, steps 4 and 18) are both in the trusted party and are in `Model/FuzzTp.lean`. `C108_tp` compares whole steps: a simulation in which the states agree but for the time stamps and the calls of `time`, as long as no cheater is known; a step that returns 0 knows none. It is proved for a clock that stands still during a step. The peers of that build differ only by `recv_msg` (`Model/FuzzPeer.lean`); `C108_peer` and `C108_peer_start` compare them in the same way, where a refused message always ends the step. |
| C109 | The programs that make test cases write what the trusted party or the first peer gets in the chosen step | `Model/FuzzDump.lean`: the arguments, `fuzz_dump` and the main loop that calls it. What should be in the file is said by means of the test program and the fuzzer of C107, run with a library that shows the input of the trusted party (`watch`). Induction over the passes, for all libraries that differ in the chosen step only. The variant for peers (line 525) is treated in the same way. Its condition `i==0` is missing for `fuzz_loop` in line 528 (`C107_peer_early_violated`). Negations: no step given (`atoi(NULL)`), and a file that cannot be opened. |

## What is modelled and what is not

| source | modelled | not modelled |
|---|---|---|
| `src/oprf.c` | all functions (`Model/Oprf.lean`) | debug output, memory locking beyond the success flag (but see `Model/Residue.lean`), key derivation details inside libsodium |
| `src/toprf.c` | `create_shares`, `coeff`, `lcoeff`, `thresholdmult`, `thresholdcombine`, `toprf_Evaluate`, `3hashtdh` (`Model/Toprf.lean`) | the size of VLAs on the stack; in `thresholdmult` an array is declared before the length is checked |
| `src/dkg.c` | all functions (`Model/Dkg.lean`) | log text |
| `src/mpmult.c` | `invertedVDMmatrix` and its helpers, `toprf_mpc_mul_start`, `toprf_mpc_mul_finish` (`Model/Mpmult.lean`) | stack use |
| `src/noise_xk` | the parts used by tp-dkg.c: devices, peers by public key, sessions, handshake, transport (`Model/Noise.lean`); the pattern XK is written token by token as in `XK.c`. The primitives of `Noise_XK.c` of the libsodium build also on memory (`Model/Prim.lean`, C84, C85), and on top of them the messages of `XK.c` (`Model/PrimHs.lean`, C88, C89). Devices, peers, names and stored secrets on the heap: `device_create`, `device_create_from_secret`, `add_peer`, `remove_peer`, both lookups, the `peer_get` functions, both `serialize` functions, `deserialize_peer_secret`, `device_free` (`Model/Device.lean`). Queries of sessions: length, status, hash, numbers, maximum security (`Model/Query.lean`). Sessions on the heap: `session_create_*`, `session_free`, `session_write`, `session_read`, packing and unpacking, all questions (`Model/SessionMem.lean`) | failure of `calloc`, pre-shared keys, the generated crypto code, the HACL build; of the example `xk-ex.c` `load_authkeys` (`Model/AuthKeys.lean`) and `main` (`Model/XkMem.lean`; with values in `Model/XkExample.lean`) are on the heap, but the buffer for lines and the arrays of `main` are not blocks of it. Any number of devices on one heap: `Spec/Devices.lean` (C104). The helpers of include/karmel: `Model/Karmel.lean` (C105) without the functions for 16 bits, which some platforms lack |
| `src/tp-dkg.c` | message codec and time window (`Model/Wire.lean`), trusted party (`Model/Tp.lean`, built for fuzzing `Model/FuzzRecv.lean`, `Model/FuzzTp.lean`, `Model/FuzzPeer.lean`), peers (`Model/Peer.lean`), the Noise helpers of the peers on the heap (`Model/PeerNoise.lean`), `tpdkg_cheater_msg` (`Model/Report.lean`), the layout of the states (`Model/Layout.lean`) | the text of the log (its reads of buffers are modelled), code under `UNITTEST` (of that under `UNITTEST_CORRUPT` the parts that alter shares and complaints are in `Model/Corrupt.lean`), temporary allocations other than those of the Noise helpers, names of Noise peers |
| `misc/attack.c` | all functions (`Model/Attack.lean`) | buffering of standard input and output |
| `src/utils.c` | `debian_rng_scalar` as the values it returns (C87) | debug output |
| `src/tests` | `toprf.c`, `mpmult.c`, `dkg.c` (`Model/Tests.lean`), `tp-dkg.c` (`Model/ShareCheck.lean`, `Model/Driver.lean`), `test.c` and `testvecs2h.py` (`Model/Vectors.lean`), `fuzz` (`Model/Fuzz.lean`), `fuzz_loop` and `fuzz_dump` of `tp-dkg.c` (`Model/FuzzLoop.lean`, `Model/FuzzDump.lean`) | the makefiles, AFL, debug output |
| `python/pyoprf` | `multiplexer.py`: `Peer.read`, `Multiplexer.gather` (`Model/Multiplexer.lean`), `Peer.connect`, `send`, `close` without the bytes (`Model/Connection.lean`); `__init__.py`: argument checks and conversions of all functions that call into the C library, `Model/Python.lean`, the structures (`Model/Layout.lean`), `tpdkg_get_cheaters` (`Model/Report.lean`); `python/tests/test.py` and `python/examples` (`Model/PyTests.lean`, `Model/PyDkg.lean`, `Model/PyTpDkg.lean`); `noisexk.py`: all functions, `Model/PyNoise.lean` (names are read, not stored; `None` as a key is not modelled; the upper bits of the registers that return `rcode` are taken as zero) | the protocol TLS, the conversion of other results |

Further simplifications, each also stated at the definition:

* `crypto_generichash` over the transcript is modelled as one hash of the concatenated updates; `transcript` holds these bytes.
* Integers on the wire are decoded for a little-endian host, as in the missing `ntohl`.
* `peer_step15_handler` reads all `n` rows of the commitments; the code stops at the first malformed one.
* A pointer to a session is indeterminate, NULL, valid or dangling. Reads through it are undefined behaviour in the first and the
  last case. The fields of a session behind a dangling pointer are not modelled.
* `ticks` counts the calls of `time`; the value of the `k`-th call is `clock k` for an arbitrary function `clock`.

## Layout of the project

* `Base`, `Sodium`: monads for C functions, byte buffers, scalars and the group.
* `Model`: the code. `Spec`: vocabulary of the statements, independent of the helpers of the model.
* `Proofs`: lemmas. `Props`: the property theorems (`Cxx_...`) and the examples that meet their hypotheses.
* `seeded/LOG.jsonl`: wrong programs tried against the theorems. `tools/mutate.py` runs them in a scratch copy.
* `tools/manifest.py` writes `MANIFEST.json` from `tools/status.json`; `tools/axioms.py` writes the last section of this file.

## Defects of the code found on the way

Each is proved as a theorem (named `..._violated`, or as listed in the manifest) unless marked otherwise.

1. `recv_msg`/`send_msg` sign only the 47 bytes of the header; bodies are not authenticated (C36).
2. tp-dkg.c:1199, 1202, 1273, 1276 use `msg->len` without `ntohl`: the plausibility test of complaint counts is void,
   and the loop may read beyond the input (C43, C49, C50).
3. `peer_step17_handler` does not check the accused and can write beyond `complaints` and `my_complaints` (C43, C50).
4. `tpdkg_tp_next` does not end the run after an error of the complaint step (C34, C39).
5. `tp_step68_handler` calls `fprintf` without testing the log file (C49).
6. `peer_step15_handler` ignores the -1 of `dkg_verify_commitments`: a malformed commitment hides later dealers (C24, C62).
7. `dkg_verify_commitment` accepts non-canonical shares, whose sum in `dkg_finish` is another value (C27, C62).
8. `tp_step18_handler` records an unanswered complaint as a report about the complainer (C45).
9. `tpdkg_cheater_msg` does not know all codes that are recorded (C52).
10. `peer_step17a_handler` sets the step to 99, which `tpdkg_peer_next` increments to 100, and reports success; the share is never set.
11. The final "NO" of the trusted party is not delivered, because `tp_step20_handler` returns 3 (C53).
12. The timestamp check compares with the clock only for the first message of a sender (C37).
13. `tpdkg_start_tp` accepts `t < 2`, and `t = 0` leads to an access out of bounds in step 7 (C49, C51).
14. `peer_step23_handler` accepts indexes above `n` (C51).
15. `peer_step13_handler` returns 64 for every rejected commitment message (not a property).
16. Sessions are freed by the Noise helpers without clearing the pointer; later steps and `tpdkg_peer_free` use them again (C50).
17. `oprf_Blind` and `oprf_Finalize` truncate the input length (C07). `thresholdcombine` ignores failed additions (C18).
18. `create_shares` with 255 shares never ends; thresholds below 2 and empty response lists are undefined (C21, C28).
19. A write out of turn on a Noise session is refused but damages it (C55).
20. The cheater log overflows silently: reports beyond its capacity are dropped (C42).
21. `Multiplexer.gather` counts failed reads, closed connections and refused pending packets as answers (C57).
22. The Python wrapper builds `ValueError(...)` without `raise` in `coeff`, `thresholdmult` and `threshold_combine`, has no
    checks in `dkg_reconstruct`, `tpdkg_peer_start` and `tpdkg_start_tp`, and lets `ctypes` truncate numbers and lengths (C58).
23. The Python `dkg_verify_commitments` raises when the C function returns 1, so that the list of failed dealers is never
    returned (not a property).
24. `tpdkg_tp_set_bufs` fills `last_ts` with the clock of the trusted party, so that `check_ts` refuses the first message of
    a peer whose clock is behind by one second, although it is within `ts_epsilon` (C48).
25. A peer does not verify its own dealing: if the trusted party broadcasts other commitments for it than it sent, nobody but
    the others notices, and the peer finishes with a share that does not fit (C62).
26. `Noise_XK_device_free` neither releases nor erases the serialisation key and the peers, and releases the private key
    without erasing it (C66).
27. The stored records of a Noise device and of its peers have the same format, key and associated data: a peer's record opens
    as a device whose private key is the peer's public key, and a device's record loads as a peer whose public key is the
    private key (C67). `Noise_XK_device_create_from_secret` has no length argument (C67).
28. `load_authkeys` of `src/noise_xk/example/xk-ex.c` returns 0 on every error and ignores the lines after a faulty one, registers a key without name under
    the name of the line before it, cuts the last name if the file does not end with a newline, and passes indeterminate
    memory on for keys with characters outside the alphabet (C90).
29. `noisexk.py` passes the length of a message modulo 2³² and a string prologue as wide characters with the number of
    characters as its length in bytes, so that only its first quarter separates domains. A failed
    `Noise_XK_session_create_*` is returned as `None` and not raised, `get_pubkey` reads through NULL before the peer is
    known, and a responder that sends first loses its session (C68).
30. A Noise session that a failed call has made unusable still reports that a message of the handshake is to be read or
    written (C71).
31. `oprf_Blind` leaves `H0` locked when the lock in `voprf_hash_to_group` fails, and the input in `msg_prime` of
    `expand_message_xmd`. `toprf_Evaluate` leaves its share times a public number, `toprf_create_shares` all coefficients
    and `dkg_start` the last coefficient (in `tmp` of `polynom`) on the stack (C72).
32. `attack tamper` prints `tampering` before the element, and `main` compares 7 bytes of arguments that can be shorter (C73).
33. The long-term key of a peer stays in its state when the first step fails, and `tpdkg_peer_free` erases none of the
    secrets of the peer (C74).
34. `Noise_XK_session_free` erases nothing: the copy of the device's private key, the ephemeral private key, the chaining
    key and the transport keys go back to the allocator as they are (C78).
35. The Noise helpers of tp-dkg.c do not free `encap_msg` if `Noise_XK_unpack_message_with_auth_level` fails
    (tp-dkg.c:214-217, 276-279, 332-335).
36. `vsps_check` of tests/mpmult.c refuses correct sharings: `_vsps` declares the matrix with rows of `t` elements though it
   has `t+1`, `indexes[t]` is not initialised for the left-hand side, and the right-hand side uses the indexes `t+1..2t+1`
   for the values at `t+2..2t+2`. `test_vsps` therefore fails for all but at most 3 challenges (C86).
37. `tpdkg_get_cheaters` (python): the test of the range is written so that it is never true, and 0 is added to the set of
    cheaters for records without a peer (C91).
38. `tpdkg_start_tp` and `tpdkg_peer_start` (python) align the state at 32 instead of 64, raise an exception for buffers that
    are not at a multiple of 16, and have padding that is right on 64-bit platforms only (C92).
39. `multiplexer.py`: with `ssl_cert` neither certificate nor host name are checked. The type `TCP` is accepted but never
    connected. `send` ignores the state. A new connection forgets the old socket without closing it (C93).
40. `verify_shares` of tests/tp-dkg.c looks at some subsets only, and seeds `rand()` with the time in seconds before each shuffle, so
    the subsets of one run are mostly the same (C94).
41. tests/tp-dkg.c declares an array of `t * t - 1` elements: undefined behaviour for the thresholds 0 and 1, which the trusted
    party accepts. Its network gives the first message again instead of the next one and silently drops what does not fit, and
    a share that is 0 in a correct run is reported as failure (C95). The buffers of 16 MiB per party are on the stack; the
    limit that the makefile sets suffices for 3 peers only (not modelled).
42. `test_toprf_tcombine` (python) overwrites the result of `threshold_combine` and compares the other value with itself. The
    tests of 3hashTDH loop over the combinations of responses but always use the first three (C96).
43. tests/test.c passes the length of the input as 8 bits to `oprf_Blind` and as 16 bits to `oprf_Finalize`; testvecs2h.py writes
    an array with too many elements for strings of odd length (C97).
44. fuzz/peer-start.c passes a key of 32 bytes where 64 are read, so that every accepted message is a read out of bounds
    in the fuzzer itself; fuzz/tpdkg_msg_parser.py takes the session id for data (C98).
45. `test_raw_dkg` (python) would pass if the key did not depend on what the dealers draw. The branch that prints failing peers
    is never reached, because the wrapper raises an exception of its own (C99).
46. `test_tp_dkg` (python) passes the name of the protocol as a string; ctypes converts it to an array of `wchar_t`, of which the C
    code reads as many bytes as the name has characters, so only the first four characters and a part of the fifth count (C100).
47. tp-dkg.c:1046 says that all shares are corrupted; the code alters those of dealer 1 for the peers 2 to `t` only (C101).
48. docs/tp-dkg.txt and tp-dkg.c differ: the transcript hashes the signature before the message and without its length; the window
    of timestamps includes the last second, and `recv_msg` in the documentation excludes the first; the fields of the announcement
    have another order; a peer with more than `t` complaints is not reported as a cheater (C102).
49. xk-ex.c:268 packs 11 bytes of "Hello Alice!", which has 13 with its terminator. The other side gets "Hello Alice" without
    terminator (C103).
50. fstar_uint128_msvc.h:207 computes the complement as `_mm_andnot_si128(a, a)`, which is 0 for every `a`. Line 107 of the same file,
    in the part without vector registers, is a syntax error (C105). Noise_XK.c uses neither.
51. lowstar_endianness.h, on a platform with the most significant byte first that has no own case (such as AIX): `htole64` exchanges the halves with
    `htobe32`, which is the identity there, instead of `htole32`. `store64_le` then writes wrong bytes, among others for the nonces of
    the messages (Noise_XK.c:65, 90), so such a host can talk to its own kind only (C105).
52. `main` of xk-ex.c returns on every error without releasing anything (xk-ex.c:28, 141, 152). After a refused message both private keys
    and all session keys stay in memory (C106).
53. In `fuzz_loop` of tests/tp-dkg.c the variable `tp_out` of line 199 hides that of line 144, but the messages for the peers (line
    162) are taken from the latter. They are those of the fuzzed step again. In steps 1 and 4 `tpdkg_tp_peer_msg` fails and the
    program ends at the first case that is accepted (C107). The reset in lines 221-222 and 349-350 copies the structures only, not
    the arrays behind their pointers and not the network. In the variant for peers the messages of the others are gone after the
    first case, so they read buffers that are not initialised.
54. Line 528 of tests/tp-dkg.c calls `fuzz_loop` for every peer, while line 525 calls `fuzz_dump` for the first peer only. The test
    cases for a peer start when the first peer has come to the step and the second one has not used its message of the step
    before, which is lost (C107).
55. `main` of tests/tp-dkg.c reads `argv[3]` although only two arguments are required (lines 363 and 373), and `fuzz_dump` uses the
    result of `fopen` without a check (line 114) (C109).

## Axioms of the property theorems

<!-- axioms begin -->
* propext, Classical.choice, Quot.sound: `C01_oprf_correct`, `C01_oprf_identity_refused`, `C01_oprf_mlock_fails`, `C02_blind_hides`, `C02_blind_uniform`, `C03_expand_message_xmd`, `C03_hash_to_group`, `C04_finalize_injective`, `C04_finalize_rfc`, `C05_evaluate_iff`, `C05_evaluate_output`, `C06_unblind_iff`, `C06_unblind_inverts`, `C07_blind_256_collide`, `C07_blind_truncates`, `C07_blind_whole_input_partial`, `C08_evaluate_comm`, `C08_evaluate_compose`, `C09_create_shares`, `C100_example_shares`, `C100_example`, `C100_tp_dkg`, `C101_altered`, `C101_complaints`, `C101_differs`, `C101_rejected`, `C102_announcement`, `C102_complaints_violated`, `C102_init`, `C102_received_partial`, `C102_timeout_violated`, `C102_transcript_binds`, `C103_accepted_partial`, `C103_any_file`, `C103_cut_violated`, `C103_rejected`, `C103_rest_ignored_violated`, `C104_independent`, `C104_refines`, `C104_released`, `C104_talk`, `C105_bytes128_partial`, `C105_bytes_partial`, `C105_compilers_partial`, `C105_masks`, `C105_msvc_not_violated`, `C105_nonce_violated`, `C105_products`, `C105_shifts`, `C105_struct`, `C106_accepted_partial`, `C106_any_file`, `C106_left_violated`, `C106_no_file_violated`, `C106_refused`, `C106_same`, `C106_undefined`, `C107_fuzzing_violated`, `C107_no_cases`, `C107_peer_early_violated`, `C107_peer_network_violated`, `C107_peer_no_cases`, `C107_peer_refused`, `C107_peer_skipped`, `C107_refused`, `C107_restored_partial`, `C107_skipped`, `C107_stale_violated`, `C108_fields`, `C108_peer_start`, `C108_peer`, `C108_tp`, `C109_args`, `C109_content`, `C109_peer_content`, `C109_peer_not_reached`, `C109_seed`, `C109_short`, `C109_unwritable_violated`, `C10_reconstruct`, `C11_secrecy_partial`, `C11_secrecy_statistical`, `C11_share_excludes_secret`, `C12_coeff_interpolates`, `C12_coeff`, `C13_thresholdmult`, `C14_thresholdmult_order`, `C15_thresholdmult_iff`, `C15_thresholdmult_rejects`, `C15_thresholdmult_too_many`, `C16_evaluate_combine`, `C16_evaluate_output`, `C16_evaluate_succeeds`, `C19_3hashtdh_iff`, `C19_3hashtdh`, `C20_threshold_oprf_combine`, `C20_threshold_oprf`, `C21_combine_safe_iff`, `C21_create_shares_safe_partial`, `C22_honest_shares_verify`, `C22_start_mlock_fails`, `C23_accepted_on_polynomial`, `C23_verify_iff`, `C23_verify_malformed_iff`, `C24_malformed_hides`, `C24_verify_commitments_partial`, `C25_dkg_reconstruct`, `C25_dkg_sum`, `C26_dkg_public_key`, `C27_share_contributes_partial`, `C27_top_bit_malleable`, `C28_dkg_255`, `C28_dkg_safe_partial`, `C28_dkg_threshold0`, `C28_reconstruct_safe_iff`, `C29_finish_safe_iff`, `C29_first_row`, `C29_inverted_vandermonde`, `C30_mpc_mul`, `C31_mul_start_partial`, `C31_mul_start_ub`, `C32_peer_to_tp`, `C32_tp_to_peer`, `C33_sizes_of_answers`, `C34_ended`, `C34_peer_ended`, `C34_peer_step10_violated`, `C34_peer_wrong_length_partial`, `C34_wrong_length_partial`, `C34_wrong_length_step6_violated`, `C35_accepted_iff`, `C35_accepted_only_if`, `C36_body_ignored`, `C36_header_partial`, `C36_not_authenticated`, `C37_ahead_of_clock`, `C37_monotone_partial`, `C37_replay_rejected`, `C37_window_partial`, `C38_peer_ends`, `C38_tp_ends`, `C39_peer_error_ends`, `C39_tp_error_ends_partial`, `C39_tp_step6_violated`, `C40_routing`, `C41_broadcast`, `C42_log_bounded_and_kept`, `C42_long_term_signature_violated`, `C42_rejected_reported_partial`, `C43_peer_complaints_partial`, `C43_peer_lists`, `C43_peer_range_violated`, `C43_tp_complaints`, `C44_dealt_share_right`, `C44_honest_dealer_acquitted`, `C44_stored_authentic`, `C44_verdict`, `C45_accused_reported_partial`, `C45_unanswered_violated`, `C46_share_confirmed`, `C47_confirms_iff`, `C47_peers_agree`, `C47_same_broadcasts`, `C47_start`, `C48_honest_run_partial`, `C48_late_clock_refused`, `C48_shares_reconstruct_partial`, `C49_defined_partial`, `C49_no_commitments_violated`, `C49_null_log_violated`, `C49_overread_violated`, `C50_count_read_violated`, `C50_count_write_violated`, `C50_double_free_violated`, `C50_freed_early`, `C50_history_safe_partial`, `C50_use_after_free_violated`, `C51_index_partial`, `C51_index_violated`, `C51_peer_accepts`, `C51_same_parameters_partial`, `C51_threshold_violated`, `C51_tp_accepts_partial`, `C52_explained_partial`, `C52_unhandled_not_explained`, `C52_wrong_length_violated`, `C53_no_not_delivered_violated`, `C53_ok_delivered_partial`, `C54_handshake`, `C54_send_succeeds`, `C54_transport`, `C55_nonces_transport`, `C55_nonces`, `C55_read_out_of_turn`, `C55_write_out_of_turn_partial`, `C55_write_out_of_turn_stuck`, `C56_byte_order`, `C56_send_receive`, `C56_send`, `C57_enough_partial`, `C57_one_slot_per_peer`, `C57_own_answer`, `C57_processed_once`, `C58_3hashtdh`, `C58_blind_partial`, `C58_blind_violated`, `C58_coeff_partial`, `C58_coeff_violated`, `C58_combine_partial`, `C58_combine_violated`, `C58_create_shares_partial`, `C58_create_shares_violated`, `C58_dkg_finish_partial`, `C58_dkg_finish_violated`, `C58_dkg_reconstruct_partial`, `C58_dkg_reconstruct_violated`, `C58_dkg_start_partial`, `C58_dkg_start_violated`, `C58_dkg_verify_partial`, `C58_evaluate`, `C58_next_partial`, `C58_peer_start_partial`, `C58_start_tp_partial`, `C58_start_tp_violated`, `C58_threshold_evaluate_partial`, `C58_threshold_evaluate_violated`, `C58_unblind`, `C59_conforms`, `C60_add_peer`, `C61_confidentiality`, `C61_decrypted`, `C61_encrypted`, `C62_malformed_violated`, `C62_one_key_partial`, `C62_own_violated`, `C62_same_commitments`, `C62_share_checked_partial`, `C62_top_bit_violated`, `C62_tp_confirms`, `C63_fine_judged`, `C63_fine_not_reported`, `C63_fine_run_partial`, `C63_grounds`, `C63_silence_violated`, `C63_timely_accepted`, `C64_deal`, `C64_defence`, `C64_reveal`, `C64_shares`, `C65_complaints`, `C65_complete_partial`, `C65_malformed_violated`, `C65_no_answer`, `C66_distinct`, `C66_found`, `C66_free_partial`, `C66_numbers`, `C66_refines`, `C66_secrets_left_violated`, `C66_view`, `C67_device_as_peer_violated`, `C67_device_opens`, `C67_device_round_trip`, `C67_peer_as_device_violated`, `C67_peer_round_trip`, `C68_array_key_violated`, `C68_delivers_partial`, `C68_responder_first_violated`, `C68_session`, `C68_short_key_violated`, `C68_utf8`, `C69_accepted`, `C69_judged_partial`, `C69_not_blamed`, `C69_silence_violated`, `C70_agreed_oprf`, `C70_dkg_oprf`, `C70_dkg_tdh`, `C70_product`, `C71_hash`, `C71_length`, `C71_max_security_stays`, `C71_max_security`, `C71_peer_id`, `C71_status_partial`, `C71_status_turn`, `C71_status_violated`, `C72_blind_partial`, `C72_coefficient_left_violated`, `C72_dkg_start_partial`, `C72_input_left_violated`, `C72_lock_left_violated`, `C72_polynomial_left_violated`, `C72_share_left_violated`, `C72_unblind`, `C73_argument_violated`, `C73_guess`, `C73_main_guess`, `C73_offline`, `C73_output_violated`, `C73_test`, `C74_erased_partial`, `C74_error_violated`, `C74_used_once`, `C75_commitments_simulated`, `C75_shares_statistical`, `C76_mul_statistical`, `C77_answers_hide`, `C78_numbers`, `C78_refines`, `C78_released`, `C78_restored`, `C78_secrets_violated`, `C79_exact`, `C79_refines`, `C79_released`, `C80_exact`, `C80_program`, `C80_released`, `C81_blind`, `C81_evaluate`, `C81_model`, `C81_unblind`, `C82_3hashtdh`, `C82_evaluate`, `C82_model`, `C82_mulFinish`, `C82_thresholdmult`, `C83_model`, `C83_reconstruct`, `C83_start`, `C83_verifyAll`, `C83_verify`, `C84_hmac`, `C84_kdf`, `C84_values`, `C85_decrypt`, `C85_encrypt`, `C85_lbytes`, `C85_mixDh`, `C85_mixHash`, `C85_mixPsk`, `C85_nonce`, `C85_split`, `C86_correct_sharing_refused_index`, `C86_correct_sharing_refused`, `C86_degree_check_partial`, `C86_test_fails`, `C87_dkg_counter`, `C87_dkg`, `C87_mpmul`, `C87_toprf`, `C88_read`, `C88_write`, `C89_read`, `C89_write`, `C90_cut_violated`, `C90_loads_partial`, `C90_nameless_violated`, `C90_only`, `C90_previous_name_violated`, `C90_rest_ignored_violated`, `C90_safe_partial`, `C90_same`, `C90_uninit_violated`, `C91_buffer`, `C91_complete`, `C91_named`, `C91_numbers`, `C91_range_violated`, `C91_zero_violated`, `C92_align_violated`, `C92_inside_partial`, `C92_raises_violated`, `C93_after_close`, `C93_cert_violated`, `C93_connected`, `C93_reconnect_violated`, `C93_tcp_violated`, `C93_verified_partial`, `C94_accepts`, `C94_detects_partial`, `C94_sample_violated`, `C94_wrong_violated`, `C95_refuses`, `C95_succeeds_partial`, `C95_threshold_violated`, `C95_zero_means`, `C95_zero_violated`, `C96_3hash_detects`, `C96_cfrg`, `C96_combinations_violated`, `C96_explicit`, `C96_native`, `C96_sss_detects`, `C96_sss`, `C96_tcombine_violated`, `C96_tcombine`, `C96_update`, `C96_vector`, `C97_long_input_violated`, `C97_mlock_fails`, `C97_vector_partial`, `C98_msg0`, `C98_parser_partial`, `C98_parser_violated`, `C98_peer_start_partial`, `C98_progress`, `C98_seed_violated`, `C99_detects`, `C99_fails_empty`, `C99_key_violated`, `C99_raw_dkg`, `C99_shares`
* propext, Quot.sound: `C03_expand_message_xmd_length`, `C102_transcript_violated`, `C103_no_file`, `C105_loops`, `C107_peer_restored_partial`, `C108_accepts`, `C108_only`, `C108_refuses`, `C109_no_step_violated`, `C109_not_reached`, `C17_combine_order`, `C17_combine_sum`, `C18_combine_ignores_malformed`, `C21_create_shares_255`, `C33_equal_partial`, `C33_total_is_sum`, `C55_failure_keeps_transport`, `C58_finalize_partial`, `C58_finalize_violated`, `C58_peer_start_violated`, `C60_only_known_peers`, `C61_authentication`, `C67_short_violated`, `C68_first_reply`, `C68_long_message_violated`, `C68_str_prologue_violated`, `C68_unknown_peer_violated`, `C71_ids`, `C72_finalize`, `C74_free_violated`, `C81_finalize`, `C90_result_violated`, `C92_layout`, `C94_reaches`, `C94_shuffle`, `C95_network_partial`, `C95_queue_violated`, `C97_header_partial`, `C97_odd_violated`, `C98_peer_start_violated`
* propext: `C18_combine_rejects_partial`, `C21_create_shares_threshold`, `C33_equal_violated`, `C57_closed_counts_violated`, `C57_failure_counts_violated`, `C57_refused_counts_violated`, `C68_early_pubkey_violated`, `C82_createShares`, `C82_mulStart`, `C82_thresholdcombine`, `C83_finish`, `C93_send_violated`
* none: `C100_name_violated`, `C92_agree`, `C92_word_violated`, `C95_drop_violated`
<!-- axioms end -->
