{"id": "C01", "title": "OPRF output is a function of key and input only", "statement": "Blinding an input, evaluating the blinded element under a key, unblinding it and finalizing yields Hash(len(x)||x||32||k*H1(x)||'Finalize'), whatever blinding scalar was drawn; every step of the chain returns success as long as the key is not 0 mod the group order and the input does not hash to the identity.", "quantifier": "all inputs of 0..255 bytes, all 32-byte keys, all non-zero blinding scalars", "why_tests_cant": "A test fixes one key, one blind and one input out of 2^252 each; independence from r is a statement about all r.", "anchors": ["src/oprf.c: oprf_Blind, oprf_Evaluate, oprf_Unblind, oprf_Finalize, voprf_hash_to_group"]}
{"id": "C02", "title": "Blinding hides the input perfectly", "statement": "For any two inputs that do not hash to the identity and any blinding scalar used for the first, there is exactly one non-zero canonical blinding scalar that makes the second input produce the same blinded element. The server's view is therefore independent of the input.", "quantifier": "all pairs of inputs, all blinding scalars", "why_tests_cant": "It is a counting statement over all blinding scalars.", "anchors": ["src/oprf.c: oprf_Blind"]}
{"id": "C03", "title": "expand_message_xmd is RFC 9380 expand_message_xmd", "statement": "The uniform bytes produced are exactly those RFC 9380 section 5.3.1 defines for SHA-512, and the function fails exactly when dst_len is 255; it never writes outside len_in_bytes bytes.", "quantifier": "all messages and tags of 0..255 bytes, all output lengths 0..255", "why_tests_cant": "Test vectors use one output length (64) and one tag; the unrolled loop behaves differently for odd and even block counts and for partial last blocks.", "anchors": ["src/oprf.c: expand_message_xmd, expand_loop, concat"]}
{"id": "C04", "title": "Finalize hashes an unambiguous encoding", "statement": "The byte string hashed by oprf_Finalize determines the pair (x, N): two calls with different inputs or different elements never hash the same string; and the string is the one RFC 9497 defines.", "quantifier": "all pairs of (x, N), x up to 65535 bytes", "why_tests_cant": "Injectivity ranges over all pairs.", "anchors": ["src/oprf.c: oprf_Finalize"]}
{"id": "C05", "title": "oprf_Evaluate fails exactly on bad elements or a zero key", "statement": "oprf_Evaluate returns 0 iff the element is a canonical encoding, is not the identity and the (255-bit masked) key is not 0 mod the group order; when it returns 0 the output is a valid non-identity encoding of k times the element.", "quantifier": "all 32-byte keys and all 32-byte elements", "why_tests_cant": "Most of the 2^256 encodings are invalid; the exact boundary cannot be enumerated.", "anchors": ["src/oprf.c: oprf_Evaluate"]}
{"id": "C06", "title": "oprf_Unblind inverts the blind or fails", "statement": "oprf_Unblind returns 0 only with a valid non-identity output N such that r*N equals the input element; it fails for every invalid or identity element and for every r that is 0 mod the group order.", "quantifier": "all 32-byte blinds and elements", "why_tests_cant": "Same as C05, plus the inverse law for all r.", "anchors": ["src/oprf.c: oprf_Unblind"]}
{"id": "C07", "title": "The whole input is blinded", "statement": "The blinded element returned for an input depends on every byte of the input: the Python/C blind call with an input of any length accepted by finalize blinds exactly that input.", "quantifier": "all inputs of 0..65535 bytes", "why_tests_cant": "Only inputs longer than 255 bytes expose the narrower length type; the failing set is infinite in shape and silent.", "anchors": ["src/oprf.c: oprf_Blind, oprf_Finalize", "python/pyoprf/__init__.py: blind"]}
{"id": "C08", "title": "Evaluations compose multiplicatively", "statement": "Evaluating an element under k1 and the result under k2 gives the same result as evaluating under k1*k2 and the order of the keys does not matter, so a stored output can be rotated to a new key.", "quantifier": "all keys, all elements", "why_tests_cant": "Algebraic law over all keys and points.", "anchors": ["src/oprf.c: oprf_Evaluate"]}
{"id": "C09", "title": "create_shares deals points of one polynomial", "statement": "The shares written are (i, f(i)) for i=1..n of a polynomial f of degree below the threshold with f(0) the secret, each canonical, and nothing outside the n shares is written.", "quantifier": "all secrets, all n up to 254, all thresholds from 2 (other sizes: C21), all random coefficients", "why_tests_cant": "Degree and consistency are statements about all coefficients and all n up to 255, including the uint8 loop boundary.", "anchors": ["src/toprf.c: toprf_create_shares"]}
{"id": "C10", "title": "Any threshold-many shares reconstruct the secret", "statement": "Reconstructing from any list of at least threshold shares with distinct indexes, in any order, returns the secret.", "quantifier": "all secrets, polynomials, subsets and orders", "why_tests_cant": "There are exponentially many subsets and orders.", "anchors": ["src/toprf.c: toprf_create_shares, coeff", "src/dkg.c: dkg_reconstruct"]}
{"id": "C11", "title": "Fewer than threshold shares reveal nothing", "statement": "For any set of threshold-1 share indexes and any two secrets, each coefficient vector for the first secret corresponds to exactly one coefficient vector for the second secret that deals the same shares to that set.", "quantifier": "all secrets, all coalitions below the threshold, all coefficient vectors", "why_tests_cant": "Secrecy quantifies over all secrets consistent with a view.", "anchors": ["src/toprf.c: toprf_create_shares"]}
{"id": "C12", "title": "coeff is the Lagrange coefficient at zero", "statement": "For an index that occurs in a list of distinct indexes, coeff returns the canonical scalar prod_{j != i} x_j/(x_j-x_i); hence for every polynomial of degree below the list length the coefficient-weighted values sum to the value at 0.", "quantifier": "all index lists of distinct bytes, all polynomials", "why_tests_cant": "2^255 subsets of indexes.", "anchors": ["src/toprf.c: coeff"]}
{"id": "C13", "title": "thresholdmult recovers k*P", "statement": "Given at least threshold evaluations k_i*P tagged with distinct indexes, toprf_thresholdmult returns 0 and writes k*P.", "quantifier": "all points, keys, share sets, subsets of at least threshold responses", "why_tests_cant": "All subsets and all field elements.", "anchors": ["src/toprf.c: toprf_thresholdmult"]}
{"id": "C14", "title": "thresholdmult does not depend on response order", "statement": "Permuting the responses changes neither the return value nor, on success, the result, for arbitrary (even malicious) responses.", "quantifier": "all response lists up to 255 entries and all permutations", "why_tests_cant": "n! orders; arbitrary adversarial responses.", "anchors": ["src/toprf.c: toprf_thresholdmult, sort_parts"]}
{"id": "C15", "title": "thresholdmult rejects malformed responses", "statement": "If any response is not a valid encoding or is the identity, or there are more than 255 responses, toprf_thresholdmult reports failure.", "quantifier": "all response lists", "why_tests_cant": "The set of malformed inputs is unbounded.", "anchors": ["src/toprf.c: toprf_thresholdmult"]}
{"id": "C16", "title": "toprf_Evaluate and thresholdcombine recover k*P", "statement": "When each of the announced shareholders evaluates with the same index list, combining their responses returns 0 and k*P, whatever the index bytes of the parts are.", "quantifier": "all points, keys, share sets, index lists of at least threshold distinct indexes", "why_tests_cant": "All subsets and all field elements.", "anchors": ["src/toprf.c: toprf_Evaluate, toprf_thresholdcombine"]}
{"id": "C17", "title": "thresholdcombine does not depend on response order or tags", "statement": "The result of toprf_thresholdcombine is the sum of the elements; it is unchanged by permuting responses or by changing their index bytes.", "quantifier": "all response lists of valid elements, all permutations, all tag bytes", "why_tests_cant": "n! orders, 256^n tags.", "anchors": ["src/toprf.c: toprf_thresholdcombine"]}
{"id": "C18", "title": "thresholdcombine rejects malformed responses", "statement": "If any response is not a valid encoding, toprf_thresholdcombine reports failure.", "quantifier": "all response lists", "why_tests_cant": "A property of all malformed inputs; the tests only feed valid ones.", "anchors": ["src/toprf.c: toprf_thresholdcombine"]}
{"id": "C19", "title": "3hashTDH with shares of zero equals plain evaluation", "statement": "If the z shares are shares of zero of degree below the number of responses, combining the toprf_3hashtdh answers of at least threshold distinct servers for the same session id gives k*alpha, for every session id.", "quantifier": "all keys, zero sharings, session ids up to 65535 bytes, elements, subsets", "why_tests_cant": "All ids, all sharings.", "anchors": ["src/toprf.c: toprf_3hashtdh, toprf_thresholdmult"]}
{"id": "C20", "title": "Threshold OPRF output equals single-server OPRF output", "statement": "Blinding, threshold evaluation by any threshold-many shareholders (either of the two combination modes), unblinding and finalizing gives the same output as the one-server protocol with the shared key.", "quantifier": "all inputs, keys, blinds, coefficient vectors, subsets", "why_tests_cant": "End-to-end statement over all randomness.", "anchors": ["src/toprf.c: toprf_create_shares, toprf_Evaluate, toprf_thresholdcombine, toprf_thresholdmult", "src/oprf.c: oprf_Blind, oprf_Unblind, oprf_Finalize"]}
{"id": "C21", "title": "Size arguments never cause undefined behaviour in the threshold functions", "statement": "For every value of the size arguments that their types and documentation admit, toprf_create_shares, toprf_thresholdmult and toprf_thresholdcombine terminate and access only their buffers.", "quantifier": "all values of n, threshold and response_len", "why_tests_cant": "Boundary values of 8-bit loop counters; UB is not observable by a passing test.", "anchors": ["src/toprf.c: toprf_create_shares, toprf_thresholdmult, toprf_thresholdcombine, sort_parts"]}
{"id": "C22", "title": "Honest DKG shares verify", "statement": "Every share produced by dkg_start is accepted by dkg_verify_commitment against the produced commitments, for each receiver.", "quantifier": "all n<255, 2<=threshold, all coefficients, all receivers", "why_tests_cant": "All coefficient vectors and receivers.", "anchors": ["src/dkg.c: dkg_start, polynom, dkg_verify_commitment"]}
{"id": "C23", "title": "A verified DKG share lies on the committed polynomial", "statement": "dkg_verify_commitment returns 0 for another dealer's share iff that share times the base point equals the committed polynomial evaluated (in the exponent) at the receiver's index; so all shares accepted from one dealer lie on one polynomial of degree below the threshold.", "quantifier": "all commitments, shares (also malicious), indexes", "why_tests_cant": "Soundness quantifies over all malicious dealers.", "anchors": ["src/dkg.c: dkg_verify_commitment"]}
{"id": "C24", "title": "dkg_verify_commitments reports exactly the bad dealers", "statement": "The returned list names exactly the dealers (other than self) whose share is inconsistent or whose commitments are malformed, in increasing order, without writing past the list.", "quantifier": "all commitments and shares of all dealers", "why_tests_cant": "All combinations of malicious dealers.", "anchors": ["src/dkg.c: dkg_verify_commitments"]}
{"id": "C25", "title": "DKG shares reconstruct the sum of the dealers' secrets", "statement": "The final shares computed by dkg_finish from honestly dealt shares lie on one polynomial of degree below the threshold whose value at 0 is the sum of the dealers' secrets; any threshold-many of them reconstruct it.", "quantifier": "all n, threshold, all dealers' coefficients, all subsets", "why_tests_cant": "All randomness of all dealers, all subsets.", "anchors": ["src/dkg.c: dkg_start, dkg_finish, dkg_reconstruct"]}
{"id": "C26", "title": "The DKG public key is determined by the commitments", "statement": "The reconstructed secret times the base point equals the sum of the dealers' first commitments, whenever all shares verified and are canonical.", "quantifier": "all transcripts in which every receiver accepts every share", "why_tests_cant": "Ranges over malicious transcripts that pass verification.", "anchors": ["src/dkg.c: dkg_verify_commitment, dkg_finish, dkg_reconstruct"]}
{"id": "C27", "title": "A share that passes verification contributes the committed value", "statement": "If dkg_verify_commitment accepts a share then dkg_finish adds exactly the committed value for it, whatever bytes the dealer sent.", "quantifier": "all 32-byte share encodings, including non-canonical ones", "why_tests_cant": "Only adversarial encodings (bit 255 set) show the difference.", "anchors": ["src/dkg.c: dkg_verify_commitment, dkg_finish"]}
{"id": "C28", "title": "Size arguments never cause undefined behaviour in the DKG functions", "statement": "For every n and threshold admitted by the documentation dkg_start, dkg_verify_commitments, dkg_finish and dkg_reconstruct terminate and access only their buffers.", "quantifier": "all values of n and threshold", "why_tests_cant": "Boundary values of 8-bit loop counters.", "anchors": ["src/dkg.c: dkg_start, dkg_verify_commitments, dkg_finish, dkg_reconstruct"]}
{"id": "C29", "title": "invertedVDMmatrix returns the inverse Vandermonde matrix", "statement": "For every list of distinct indexes the computed matrix times the Vandermonde matrix of the indexes is the identity, whatever pivots the byte-wise comparison selects.", "quantifier": "all lists of 1..255 distinct indexes", "why_tests_cant": "2^255 index sets; pivoting depends on residues mod the group order.", "anchors": ["src/mpmult.c: gaussian, invert, genVDMmatrix, invertedVDMmatrix"]}
{"id": "C30", "title": "Multiparty multiplication yields shares of the product", "statement": "If at least 2(threshold-1)+1 dealers re-share the product of their shares of a and b with toprf_mpc_mul_start and each peer combines with toprf_mpc_mul_finish, the results are degree-below-threshold shares of a*b.", "quantifier": "all secrets, sharings, re-sharing randomness, dealer sets, dealer orders", "why_tests_cant": "All randomness and subsets.", "anchors": ["src/mpmult.c: toprf_mpc_mul_start, toprf_mpc_mul_finish"]}
{"id": "C31", "title": "toprf_mpc_mul_start validates its arguments", "statement": "It fails exactly when the two shares have different indexes, the threshold is zero or exceeds the number of peers; otherwise it deals a sharing of the product.", "quantifier": "all shares, peers, thresholds", "why_tests_cant": "All argument combinations.", "anchors": ["src/mpmult.c: toprf_mpc_mul_start"]}
{"id": "C32", "title": "TP and peers agree on every message size", "statement": "At every step the number of bytes the trusted party prepares for each peer equals the number of bytes that peer expects, and the number of bytes a peer outputs equals what the trusted party expects from it; for all n and t and all complaint situations known to both.", "quantifier": "all n, t, all steps", "why_tests_cant": "Sizes are functions of n, t and of the complaint matrix.", "anchors": ["src/tp-dkg.c: tpdkg_tp_input_size, tpdkg_tp_input_sizes, tpdkg_tp_output_size, tpdkg_tp_peer_msg, tpdkg_peer_input_size, tpdkg_peer_output_size"]}
{"id": "C33", "title": "tpdkg_tp_input_size is the sum of tpdkg_tp_input_sizes", "statement": "At every step the total input size equals the sum of the per-peer sizes, and the function reporting equal sizes does so exactly when all entries are equal to the total divided by n.", "quantifier": "all TP states", "why_tests_cant": "All complaint matrices and steps.", "anchors": ["src/tp-dkg.c: tpdkg_tp_input_size, tpdkg_tp_input_sizes"]}
{"id": "C34", "title": "Inputs or outputs of the wrong length are rejected", "statement": "Calling next with an input or output buffer whose length differs from the announced size fails and changes no protocol state except marking the run as failed.", "quantifier": "all states, all steps, all buffer lengths", "why_tests_cant": "All lengths and states.", "anchors": ["src/tp-dkg.c: tpdkg_tp_next, tpdkg_peer_next and the step functions"]}
{"id": "C35", "title": "A received message is accepted iff it is fresh, correctly addressed and signed", "statement": "A message is accepted exactly when length, message number, sender, recipient, session id match the expectation, its timestamp is in the window and its signature verifies under the sender's key over the header.", "quantifier": "all messages, expectations, clock values", "why_tests_cant": "All byte strings and clocks.", "anchors": ["src/tp-dkg.c: recv_msg, check_ts, send_msg"]}
{"id": "C36", "title": "Message bodies are authenticated", "statement": "If a message sent by an honest party is accepted, then an altered message with the same header but a different body is not accepted.", "quantifier": "all messages and all modifications", "why_tests_cant": "Quantifies over all attacker modifications.", "anchors": ["src/tp-dkg.c: send_msg, recv_msg", "src/tp-dkg.h: TP_DKG_Message"]}
{"id": "C37", "title": "Timestamps never go backwards", "statement": "Over any history of received messages the timestamps accepted from one sender are non-decreasing, lie at most the permitted age behind and never ahead of the receiver's clock; replays with an older timestamp are rejected.", "quantifier": "all histories of messages and clock values", "why_tests_cant": "Property of all histories.", "anchors": ["src/tp-dkg.c: check_ts, recv_msg"]}
{"id": "C38", "title": "Every run ends", "statement": "Whatever inputs arrive, the TP reports done after at most 10 and a peer after at most 11 successful next calls, and next fails from then on.", "quantifier": "all input histories", "why_tests_cant": "All schedules.", "anchors": ["src/tp-dkg.c: tpdkg_tp_next, tpdkg_peer_next, tpdkg_tp_not_done, tpdkg_peer_not_done"]}
{"id": "C39", "title": "An error ends the run", "statement": "When next returns an error the run is over: not_done returns false from then on.", "quantifier": "all states and inputs, TP and peer", "why_tests_cant": "All error paths.", "anchors": ["src/tp-dkg.c: tpdkg_tp_next, tpdkg_peer_next"]}
{"id": "C40", "title": "The TP routes pairwise messages to the right peer", "statement": "In steps with pairwise messages, the i-th message in the bundle delivered to peer j is the message peer i addressed to j, for all i and j.", "quantifier": "all n, all i, j, all message contents", "why_tests_cant": "Index arithmetic for all n.", "anchors": ["src/tp-dkg.c: tp_step68_handler, tp_step14_handler, tpdkg_tp_peer_msg"]}
{"id": "C41", "title": "Broadcasts deliver the same bytes to everyone", "statement": "In broadcast steps every peer is handed the identical bundle containing every peer's message in index order.", "quantifier": "all n, all steps, all contents", "why_tests_cant": "All n and contents.", "anchors": ["src/tp-dkg.c: tp_step4_handler, tp_step12_handler, tp_step16_handler, tp_step18_handler, tpdkg_tp_peer_msg"]}
{"id": "C42", "title": "The cheater log is bounded and complete", "statement": "Reported cheaters never exceed the caller's log capacity, earlier reports are never overwritten, and each rejected message is reported while there is room.", "quantifier": "all histories of reports", "why_tests_cant": "All histories.", "anchors": ["src/tp-dkg.c: add_cheater, tp handlers"]}
{"id": "C43", "title": "Recorded complaints are unique, in range and bounded", "statement": "After the complaint step the TP's and the peers' complaint lists contain only pairs of valid peer indexes, without duplicates and within capacity, for arbitrary complaint messages.", "quantifier": "all complaint messages from malicious peers", "why_tests_cant": "Arbitrary adversarial message contents.", "anchors": ["src/tp-dkg.c: tp_step16_handler, peer_step17_handler, parse complaints"]}
{"id": "C44", "title": "Complaint verdicts are right", "statement": "When a complaint is answered with the key and share, the accused is declared a cheater exactly when the revealed key does not match the key commitment, the ciphertext does not decrypt, or the share contradicts the commitments; an honest dealer is always acquitted.", "quantifier": "all complaints, keys, ciphertexts, commitments", "why_tests_cant": "All adversarial reveals.", "anchors": ["src/tp-dkg.c: tp_step18_handler, peer_step17a_handler"]}
{"id": "C45", "title": "Unanswered complaints are blamed on the accused", "statement": "If an accused peer does not answer a complaint, the report names the accused as the cheater.", "quantifier": "all complaint matrices", "why_tests_cant": "All complaint situations.", "anchors": ["src/tp-dkg.c: tp_step18_handler, tpdkg_cheater_msg", "src/tp-dkg.h: cheater error codes"]}
{"id": "C46", "title": "A peer obtains a share only from a confirmed run", "statement": "A peer's resulting share is set only after it accepted an 'OK' from the TP over the final transcript; in every other history the run fails or the share stays unset.", "quantifier": "all input histories of a peer", "why_tests_cant": "All histories.", "anchors": ["src/tp-dkg.c: peer_step19_handler, peer_step21_handler, tpdkg_peer_next"]}
{"id": "C47", "title": "The TP confirms only when all transcripts agree", "statement": "The TP sends 'OK' iff all n peers sent exactly the transcript hash the TP computed itself; honest participants that saw the same broadcasts compute the same transcript.", "quantifier": "all peer messages, all broadcasts", "why_tests_cant": "All histories of broadcasts.", "anchors": ["src/tp-dkg.c: update_transcript, tp_step20_handler, peer_step19_handler"]}
{"id": "C48", "title": "An honest run succeeds and yields a shared key", "statement": "If all parties follow the protocol and messages are delivered, every step succeeds, no cheater is recorded, no complaint is raised and the peers' final shares are threshold shares of one key.", "quantifier": "all n, t with 2<=t<n<=128, all randomness, all clock values within the window", "why_tests_cant": "All parameters and randomness; the tests run one configuration.", "anchors": ["src/tp-dkg.c: whole protocol"]}
{"id": "C49", "title": "TP message handling is memory safe", "statement": "No input makes a TP step read or write outside its buffers or use an invalid pointer.", "quantifier": "all TP states, all inputs of announced length, with or without log file", "why_tests_cant": "UB is not observable by a passing test; inputs are adversarial.", "anchors": ["src/tp-dkg.c: tpdkg_tp_next and all tp_step handlers"]}
{"id": "C50", "title": "Peer message handling is memory safe", "statement": "No input makes a peer step, or the final cleanup, read or write outside its buffers, use a freed session or free one twice.", "quantifier": "all input histories of a peer", "why_tests_cant": "UB is not observable by a passing test; inputs are adversarial.", "anchors": ["src/tp-dkg.c: tpdkg_peer_next, tpdkg_peer_free and all peer_step handlers, noise helpers"]}
{"id": "C51", "title": "Protocol parameters are validated the same way by both sides", "statement": "tpdkg_start_tp accepts exactly the parameters 2<=t<n<=128 that peers accept in their start message; a started peer has an index within 1..n.", "quantifier": "all n, t, proto_name lengths, ids", "why_tests_cant": "All parameter combinations.", "anchors": ["src/tp-dkg.c: tpdkg_start_tp, tpdkg_start_peer, peer_step23_handler"]}
{"id": "C52", "title": "Every recorded cheater entry can be explained", "statement": "For each cheater record that the TP can write, the message function returns a non-zero id of the culprit and a text that fits the error.", "quantifier": "all cheater records the TP can produce", "why_tests_cant": "All error codes times all steps.", "anchors": ["src/tp-dkg.c: tpdkg_cheater_msg, tpdkg_recv_err", "src/tp-dkg.h: error codes"]}
{"id": "C53", "title": "The TP's verdict reaches every peer", "statement": "Whenever the TP signs a final 'OK' or 'NO', the API hands this message out for each peer.", "quantifier": "all runs reaching the final step", "why_tests_cant": "Only failing transcripts show it.", "anchors": ["src/tp-dkg.c: tp_step20_handler, tpdkg_tp_next, tpdkg_tp_peer_msg"]}
{"id": "C54", "title": "Noise XK sessions agree on keys and deliver messages", "statement": "When the three handshake messages are exchanged unmodified between an initiator that knows the responder's static key and the responder, both reach transport state with matching keys, the initiator's static key is delivered, and each later message decrypts to what was sent; the message sizes are 48, 48, 64 and plaintext+16.", "quantifier": "all static and ephemeral keys, all prologues, all message sequences", "why_tests_cant": "All keys and message sequences.", "anchors": ["src/noise_xk/src/XK.c: Noise_XK_session_write, Noise_XK_session_read, state_handshake_write, state_handshake_read", "src/noise_xk/src/Noise_XK.c"]}
{"id": "C55", "title": "A Noise session never reuses a nonce and rejects out-of-turn calls", "statement": "Along any sequence of reads and writes (including failing ones) no two successful transport encryptions of a session use the same key and nonce; a handshake write or read by the wrong side is refused without changing the step.", "quantifier": "all call sequences", "why_tests_cant": "All schedules.", "anchors": ["src/noise_xk/src/XK.c: Noise_XK_session_write, Noise_XK_session_read"]}
{"id": "C56", "title": "Message codec round-trips", "statement": "The header fields written by the sender (message number, length, from, to, timestamp, session id) are exactly the ones read by the receiver, at fixed offsets, for all values; the 64-bit timestamp conversion is an involution.", "quantifier": "all header field values, all bodies", "why_tests_cant": "2^64 timestamps, 2^32 lengths.", "anchors": ["src/tp-dkg.c: send_msg, recv_msg, htonll, ntohll"]}
{"id": "C57", "title": "The multiplexer returns each peer's own answer", "statement": "When gather returns, the result list has one slot per peer, slot i holds only bytes read from peer i, at least the requested number of slots were answered, and no peer's answer is processed twice.", "quantifier": "all arrival schedules", "why_tests_cant": "All interleavings of arrivals.", "anchors": ["python/pyoprf/multiplexer.py: Multiplexer.gather, Peer.read"]}
{"id": "C58", "title": "The Python wrapper rejects arguments the C functions cannot handle", "statement": "Every call of the wrapper with arguments outside the domain of the C function (sizes, element lengths, thresholds, numbers of responses) raises before calling C.", "quantifier": "all argument values", "why_tests_cant": "All argument combinations; missing raises are invisible with valid arguments.", "anchors": ["python/pyoprf/__init__.py: create_shares, thresholdmult, threshold_combine, dkg_start, dkg_reconstruct, dkg_verify_commitments, tpdkg_*"]}
{"id": "C59", "title": "The handshake is Noise XK as specified", "statement": "Between honest parties the three handshake messages, the transcript hash and the two transport keys are those the Noise specification (revision 34) prescribes for Noise_XK_25519_ChaChaPoly_BLAKE2b, with the initiator sending under the first key.", "quantifier": "all static and ephemeral keys, prologues and payloads", "why_tests_cant": "Two ends of the same implementation agree even when both deviate from the specification.", "anchors": ["src/noise_xk/src/XK.c: state_handshake_write, state_handshake_read", "src/noise_xk/src/Noise_XK.c: Noise_XK_hmac, Noise_XK_kdf, Noise_XK_mix_dh, Noise_XK_mix_hash"]}
{"id": "C60", "title": "A responder only talks to peers on its list", "statement": "Whatever sequence of calls and inputs a responder session sees, when it is in transport state its peer id belongs to an entry of the device's peer list; adding a peer keeps ids and keys in the list unique and refuses a key already present.", "quantifier": "all call sequences and all inputs", "why_tests_cant": "All adversarial inputs.", "anchors": ["src/noise_xk/src/XK.c: state_handshake_read, Noise_XK_device_add_peer"]}
{"id": "C61", "title": "Noise payloads keep the security level asked for", "statement": "A write whose payload asks for a confidentiality level the current message does not provide is refused and leaves the session unchanged; a received payload is labelled with the authentication level of its message, and unpacking for a level yields a non-empty payload exactly if the label reaches it.", "quantifier": "all sessions, levels and payloads", "why_tests_cant": "All combinations of state, level and payload.", "anchors": ["src/noise_xk/src/XK.c: Noise_XK_session_write, Noise_XK_session_read, Noise_XK_unpack_message_with_auth_level"]}
{"id": "C62", "title": "The shares of the peers belong to one key", "statement": "If the trusted party and some peers of a run finish, then all these peers received the same commitments, every share that a peer received satisfies Feldman's equation for them, the final shares lie on one polynomial of degree below t, any t of them reconstruct the same key, and the sum of the dealers' first commitments is its public key.", "quantifier": "all runs, all messages of the other parties, all clocks and all sets of peers", "why_tests_cant": "Tests cover a few corruptions; the claim is about arbitrary messages of dishonest dealers in all steps.", "anchors": ["src/tp-dkg.c: peer_step13_handler, peer_step15_handler, peer_step19_handler, peer_step21_handler, tp_step16_handler, tp_step20_handler", "src/dkg.c: dkg_verify_commitments, dkg_finish"]}
{"id": "C63", "title": "Reports of the trusted party have a ground; an honest peer is not named", "statement": "Every report that the trusted party writes has a ground in what the reported peer sent in this call: its message was rejected, it complained about somebody who is not a peer or twice about the same peer, it sent another transcript hash, or there are at least t\u00b2 complaints. A peer whose messages are authentic and timely, whose complaints and answers are right and whose transcript agrees is not named in the cheater log, whatever the other peers send.", "quantifier": "all states, all inputs of the other peers, all clocks and all sequences of calls", "why_tests_cant": "The other peers are arbitrary; tests cover a few corruptions.", "anchors": ["src/tp-dkg.c: tp_step4_handler, tp_step68_handler, tp_step12_handler, tp_step14_handler, tp_step16_handler, tp_step18_handler, tp_step20_handler, tp_step22_handler, add_cheater, tpdkg_cheater_msg"]}
{"id": "C64", "title": "A peer's answer to complaints is right", "statement": "A peer that commits to its polynomial and deals the shares sends to every peer the share for its index, which satisfies Feldman's equation for the commitments sent, encrypted under the key of the session and with a code that commits to this key. If there are complaints, its answer names exactly the peers whose complaints name it, each once, and gives for each of them the key that opens the share sent to it; no other key is disclosed, and nothing is sent if no complaint names it.", "quantifier": "all well-formed states, all messages of the other parties, all clocks and all random values", "why_tests_cant": "Tests cover a few complaints; the claim is about arbitrary complaints and messages of the other peers in five consecutive steps.", "anchors": ["src/tp-dkg.c: peer_step911_handler, peer_step13_handler, peer_step17_handler, peer_step17a_handler, encrypt_noise", "src/dkg.c: dkg_start"]}
{"id": "C65", "title": "A peer complains exactly about wrong shares", "statement": "The complaints that a peer sends name, in increasing order and once each, the other peers whose share, opened with the key they have committed to, does not satisfy Feldman's equation for the commitments received. A peer that is complained about has no key under which its share is right, unless two keys have the same code for the ciphertext.", "quantifier": "all well-formed states, all messages of the other parties and all clocks", "why_tests_cant": "Wrong shares and commitments are arbitrary; tests cover a few corruptions.", "anchors": ["src/tp-dkg.c: peer_step13_handler, peer_step15_handler", "src/dkg.c: dkg_verify_commitments, dkg_verify_commitment"]}
{"id": "C66", "title": "Noise devices and their peer lists are memory-safe and behave like lists", "statement": "Every sequence of calls that add, remove, look up, store or load peers of a device, on the heap with pointers, returns the same answers as the same calls on a plain list of peers; no call reads, writes or frees memory that is not allocated, no call touches memory of others, numbers of peers are never given out twice, and freeing the device releases and erases everything that belongs to it.", "quantifier": "all heaps, devices, names, keys and sequences of calls", "why_tests_cant": "Use after free and wrong list surgery depend on the order of calls; tests try a few orders.", "anchors": ["src/noise_xk/src/XK.c: Noise_XK_device_create, Noise_XK_device_add_peer, Noise_XK_device_remove_peer, Noise_XK_device_lookup_peer_by_id, Noise_XK_device_lookup_peer_by_static, Noise_XK_peer_get_id, Noise_XK_peer_get_info, Noise_XK_peer_get_static, Noise_XK_device_free"]}
{"id": "C67", "title": "Stored secrets of Noise devices and peers are restored as what they were", "statement": "A stored device opens again under the same name and serialisation key as a device with the same private key, a stored peer is added again with the same key; a record that does not decrypt is refused without leaving memory behind; a record opens only as the kind of secret it was stored as; and no record is read beyond its end.", "quantifier": "all devices, peers, names, keys, nonces, records and heaps", "why_tests_cant": "All records, including those of the other kind and cut ones; the heap behaviour on refusal is not visible to tests.", "anchors": ["src/noise_xk/src/XK.c: Noise_XK_serialize_device_secret, Noise_XK_device_create_from_secret, Noise_XK_serialize_peer_secret, Noise_XK_deserialize_peer_secret"]}
{"id": "C68", "title": "Two Python programs that use the Noise wrapper can talk to each other", "statement": "With 32-byte keys, the same domain separation and the initiator's key on the responder's list, initiator_session, responder_session and initiator_session_complete raise nothing; afterwards read_msg returns exactly the messages given to send_msg, in order and in both directions, strings as their UTF-8; get_pubkey returns the initiator's key; failures of the library are raised as exceptions and no argument is read beyond its end.", "quantifier": "all keys, names, lists of accepted keys, ephemeral keys, messages and interleavings of sends and reads", "why_tests_cant": "All interleavings and lists of keys; messages of 4 GB and the memory read through ctypes are out of reach of the tests.", "anchors": ["python/pyoprf/noisexk.py: create_device, add_peer, initiator_session, responder_session, initiator_session_complete, send_msg, read_msg, get_pubkey"]}
{"id": "C69", "title": "A peer that follows the protocol is not blamed", "statement": "Let one peer run the code unchanged, let its messages and those to it arrive unchanged, let its clock never go back, not be behind the start of the trusted party and be at most ts_epsilon ahead of it. Then every message of this peer is accepted by the trusted party, its transcript hash equals that of the trusted party, and no record of the cheater log is about this peer or names it, whatever the other peers send and even in the call that ends the run.", "quantifier": "all numbers of peers and thresholds, all random values and clocks, all messages of the other peers, all interleavings of calls of the peer and the trusted party", "why_tests_cant": "The other peers are arbitrary; a test can only try some of their messages, and the driver runs all parties honestly.", "anchors": ["src/tp-dkg.c: tpdkg_start_tp, tpdkg_tp_next, tpdkg_start_peer, tpdkg_peer_next, tpdkg_cheater_msg"]}
{"id": "C70", "title": "Keys made by the distributed key generation serve the threshold OPRF", "statement": "After a run of the trusted-party DKG in which all follow the protocol, any t peers that evaluate a blinded input with their shares (by toprf_Evaluate and toprf_thresholdcombine, by oprf_Evaluate and toprf_thresholdmult, or by toprf_3hashtdh with shares of zero) give the client the output of the one-server OPRF under the sum of the secrets drawn by the peers; if that sum is 0 the client notices. The same holds for the product of two such keys computed by at least 2t-1 peers with toprf_mpc_mul_start and toprf_mpc_mul_finish, and, under the conditions of C62, for the peers that finish a run with cheaters.", "quantifier": "all numbers of peers and thresholds, all random values and clocks, all selections of t peers, all inputs and blinding factors", "why_tests_cant": "The test programs check single parameters and selections; nothing joins the DKG, the multiplication and the OPRF.", "anchors": ["src/tp-dkg.c: tpdkg_tp_next, tpdkg_peer_next", "src/toprf.c: toprf_Evaluate, toprf_thresholdcombine, toprf_thresholdmult, toprf_3hashtdh", "src/mpmult.c: toprf_mpc_mul_start, toprf_mpc_mul_finish", "src/oprf.c: oprf_Blind, oprf_Evaluate, oprf_Unblind, oprf_Finalize"]}
{"id": "C71", "title": "A Noise session answers questions about itself correctly", "statement": "The announced length of the next message is the length of the message written next; the status says whose turn it is in the handshake and whether the handshake is over, and a session that can not be used any more does not claim to wait for a message; maximum security is reported exactly when the handshake is over and, for the initiator, a message of the responder was read since, and stays; both sides report the handshake hash of the Noise specification; the peer's number is 0 until the peer is known; sessions of one device have different numbers.", "quantifier": "all devices, keys, messages, payload lengths and sequences of calls, with successes and failures", "why_tests_cant": "All sequences of calls, including failing ones; the example program only asks in the expected order.", "anchors": ["src/noise_xk/src/XK.c: Noise_XK_session_compute_next_message_len, Noise_XK_session_get_status, Noise_XK_session_get_hash, Noise_XK_session_get_id, Noise_XK_session_get_peer_id, Noise_XK_session_reached_max_security"]}
{"id": "C72", "title": "Secrets do not stay on the stack", "statement": "When oprf_Blind, oprf_Unblind, oprf_Finalize, toprf_Evaluate, toprf_create_shares and dkg_start return, on every path, their buffers with secrets (hashed input, input, inverse of the blinding factor, hash state, share, coefficients) are erased and no memory stays locked.", "quantifier": "all inputs, random values, outcomes of sodium_mlock and contents of the stack before the call", "why_tests_cant": "The contents of dead stack frames and the outcomes of sodium_mlock are not visible to tests.", "anchors": ["src/oprf.c: oprf_Blind, oprf_Unblind, oprf_Finalize, voprf_hash_to_group, expand_message_xmd", "src/toprf.c: toprf_Evaluate, toprf_create_shares", "src/dkg.c: dkg_start, polynom"]}
{"id": "C73", "title": "The demonstration of the identity attack does what it says", "statement": "attack.c shows that a server that answers with the client's own element learns from the output a test for passwords: a client talking to tamper completes the protocol, guess accepts the output with the client's password and with no other one unless SHA-512 has a collision, the self-test gives -1 and 0, the program writes only the element to its standard output and reads its arguments within their bounds.", "quantifier": "all passwords, blinding factors, arguments and standard inputs", "why_tests_cant": "The program tests one password; all others, and the memory behind short arguments, are out of reach.", "anchors": ["misc/attack.c: tamper, guess, test, main"]}
{"id": "C74", "title": "A peer does not keep its long-term key and erases its secrets", "statement": "The long-term key given to tpdkg_start_peer is used for one signature only, the one on message 2, and is erased from the state when the first step is over; tpdkg_peer_free erases the keys and shares that are left.", "quantifier": "all states before the first step, all sequences of calls, random values and clocks", "why_tests_cant": "The tests do not look at the memory of a state, and most sequences of failing calls are never made.", "anchors": ["src/tp-dkg.c: tpdkg_start_peer, peer_step23_handler, tpdkg_peer_next, tpdkg_peer_free"]}
{"id": "C75", "title": "A dealer's messages tell a coalition of t-1 receivers nothing but the public value of the secret", "statement": "The commitments that dkg_start computes are functions of the first one and of the shares of any t-1 receivers. The shares of t-1 receivers have almost the same distribution for all secrets: the coefficient vectors for two secrets are paired so that the shares are the same, and the pairing is one to one on the vectors libsodium draws but for at most (t-1)*L^(t-2) of them.", "quantifier": "all secrets, numbers of receivers, thresholds, coalitions of t-1 receivers and coefficients", "why_tests_cant": "A statement about distributions and about all functions of a view; tests see single runs.", "anchors": ["src/dkg.c: dkg_start, polynom"]}
{"id": "C76", "title": "A multiplication tells a coalition of t-1 peers nothing about the factors", "statement": "What t-1 receivers get from a peer in toprf_mpc_mul_start has almost the same distribution whatever two shares the peer multiplies, with the bound of C75.", "quantifier": "all shares, numbers of peers, thresholds, coalitions of t-1 receivers and random coefficients", "why_tests_cant": "A statement about distributions; tests see single runs.", "anchors": ["src/mpmult.c: toprf_mpc_mul_start", "src/toprf.c: toprf_create_shares"]}
{"id": "C77", "title": "Answers with 3hashTDH tell no more than their combination", "statement": "For any two sharings of the same key, each choice of the shares of zero for the first one corresponds to exactly one choice for the second one that gives the same elements, and with it toprf_3hashtdh gives the same answers, unless a share is 0 and the call fails.", "quantifier": "all keys, sharings, shares of zero, blinded elements, session ids and sets of servers", "why_tests_cant": "Hiding quantifies over all sharings that explain the same answers.", "anchors": ["src/toprf.c: toprf_3hashtdh"]}
{"id": "C78", "title": "Noise sessions on the heap do what sessions as values do, and leave nothing behind", "statement": "Every program of calls on a device and its sessions (create as initiator or responder, write, read, unpack, the questions about status, hash, number, names, peer and key, free) runs on the heap without undefined behaviour and gives the answers of the same program on plain values. Closed sessions leave no block behind. Numbers of open sessions are distinct. A closed session's private, ephemeral and transport keys are erased.", "quantifier": "all programs, names, keys, received bytes, levels and heaps", "why_tests_cant": "The programs and inputs are unbounded, and undefined behaviour, leaks and left secrets are not visible in the results of a test.", "anchors": ["src/noise_xk/src/XK.c: Noise_XK_session_create_initiator, Noise_XK_session_create_responder, Noise_XK_session_free, Noise_XK_session_write, Noise_XK_session_read, Noise_XK_session_get_*, Noise_XK_session_reached_max_security, Noise_XK_pack_message_with_conf_level, Noise_XK_unpack_message_with_auth_level", "src/tp-dkg.c: Noise_XK_session_get_key"]}
{"id": "C79", "title": "The Noise helpers of the key generation on the heap do what they do on values, and their leaks are counted exactly", "statement": "For every program of calls of tpdkg_init_noise_handshake, tpdkg_respond_noise_handshake, tpdkg_finish_noise_handshake, tpdkg_noise_encrypt, tpdkg_noise_decrypt, Noise_XK_session_get_key and the frees of tpdkg_peer_free on the session slots of a peer, with any bytes from outside: if the program is defined on sessions as values with a mark for freed pointers, then it runs on the heap without undefined behaviour, gives the same return values and bytes and touches no older block; if it is not defined on values, it is not defined on the heap. After all sessions are closed exactly the blocks of the device, of refused or untaken messages and of overwritten sessions are left.", "quantifier": "all programs, slots, keys, received bytes, lengths and heaps", "why_tests_cant": "The programs and inputs are unbounded, and undefined behaviour and leaks are not visible in the results of a test.", "anchors": ["src/tp-dkg.c: tpdkg_init_noise_handshake, tpdkg_respond_noise_handshake, tpdkg_finish_noise_handshake, tpdkg_noise_encrypt, tpdkg_noise_decrypt, tpdkg_peer_free", "src/noise_xk/src/XK.c: Noise_XK_session_read, Noise_XK_session_write, Noise_XK_unpack_message_with_auth_level, Noise_XK_session_free"]}
{"id": "C80", "title": "A peer's memory of Noise sessions is what its protocol calls leave, and its cleanup releases exactly the sessions", "statement": "Whatever a peer of the key generation receives, its calls of the Noise helpers are a program on its session slots: a call that succeeds makes all calls of its step, one that fails the first ones. The device and the sessions are what this program leaves; no open session is overwritten and no block of a received message stays allocated. If tpdkg_peer_free is defined afterwards, program and cleanup run on the heap without undefined behaviour and leave exactly the storage key of the device and four blocks for every key that the device knows; if it is not, they have no defined behaviour on the heap either.", "quantifier": "all parameters, received messages, random bytes, clocks, numbers of calls, also after failures, and heaps", "why_tests_cant": "The messages and the ways to fail are unbounded, and undefined behaviour and leaks are not visible in the results of a test.", "anchors": ["src/tp-dkg.c: tpdkg_peer_next, peer_step5_handler, peer_step7_handler, peer_step911_handler, peer_step13_handler, peer_step15_handler, peer_step17a_handler, tpdkg_peer_free"]}
{"id": "C81", "title": "The control flow and the memory accesses of the OPRF do not depend on inputs, keys and random scalars", "statement": "The trace of oprf_Finalize depends on the length of the input only. Two runs of oprf_Blind on inputs of the same length, of oprf_Evaluate and of oprf_Unblind part at most at the return value of a libsodium call; two successful runs have the same trace: the same calls, branches and accesses with the same offsets, whatever the input, the key, the random scalar and the old contents of the buffers are.", "quantifier": "all inputs, keys, scalars, elements and buffers", "why_tests_cant": "A test sees results, not traces, and a leak for one in 2^252 secrets is not met by chance.", "anchors": ["src/oprf.c: oprf_Finalize, expand_message_xmd, voprf_hash_to_group, oprf_Blind, oprf_Evaluate, oprf_Unblind"]}
{"id": "C82", "title": "The control flow and the memory accesses of the threshold functions do not depend on shares and secrets", "statement": "The traces of toprf_create_shares, toprf_mpc_mul_start and toprf_mpc_mul_finish depend on numbers, thresholds and indexes only, those of toprf_thresholdmult, toprf_thresholdcombine, toprf_Evaluate and toprf_3hashtdh for equal indexes part at most at the return value of a libsodium call and are equal for runs that succeed. In particular the comparisons of mpmult.c that need not take constant time see indexes only.", "quantifier": "all secrets, shares, coefficients, index lists, numbers and thresholds", "why_tests_cant": "A test sees results, not traces.", "anchors": ["src/toprf.c: create_shares, coeff, lcoeff, toprf_Evaluate, toprf_thresholdmult, toprf_thresholdcombine, toprf_3hashtdh", "src/mpmult.c: toprf_mpc_mul_start, toprf_mpc_mul_finish, cmp, sort"]}
{"id": "C83", "title": "The control flow and the memory accesses of the key generation do not depend on coefficients and shares", "statement": "The traces of dkg_finish and dkg_reconstruct depend on the indexes of the shares only. Two runs of dkg_start part at most at the return value of a libsodium call and are equal when no coefficient is 0. For given commitments dkg_verify_commitment tells about a share only whether it is 0 and whether it is accepted.", "quantifier": "all coefficients, shares, commitments, numbers and thresholds", "why_tests_cant": "A test sees results, not traces.", "anchors": ["src/dkg.c: dkg_start, polynom, dkg_verify_commitment, dkg_verify_commitments, dkg_finish, dkg_reconstruct"]}
{"id": "C84", "title": "HMAC and HKDF of the Noise library are the published functions on memory and wipe what they derive", "statement": "For all keys and data, of any length and also when the output overlaps key, data or chaining key, Noise_XK_hmac writes HMAC (RFC 2104) over BLAKE2b with its block of 128 bytes, Noise_XK_kdf writes the outputs of HKDF to the pointers before the first NULL and nothing else. No undefined behaviour and no read of an unwritten byte happens; the padded key, the pseudorandom key and the blocks of the expansion are wiped from the stack frames. The functions on values used by the other properties compute the same.", "quantifier": "all addresses, contents, lengths up to 2^32 and placements of the stack frame", "why_tests_cant": "Keys longer than a block and overlapping buffers are rare; residue on the stack is not visible in results.", "anchors": ["src/noise_xk/src/Noise_XK.c: Noise_XK_hmac, Noise_XK_kdf, Noise_XK_hash"]}
{"id": "C85", "title": "The other primitives of the Noise library do on memory what the Noise specification says and leave their frames clean", "statement": "For all contents: Noise_XK_lbytes_eq compares all bytes; the nonces of the AEAD are 12 bytes that determine the counter and are read back by Noise_XK_bytes_to_nonce; Noise_XK_mix_hash is MixHash; Noise_XK_mix_dh is MixKey of the shared secret and changes nothing on failure; Noise_XK_mix_psk is MixKeyAndHash; the split gives halves of the outputs of HKDF with empty input; Noise_XK_encrypt_and_hash is EncryptAndHash, also in place; Noise_XK_decrypt_and_hash is DecryptAndHash and leaves zeros and the old hash on failure. Each leaves zeros in its frame.", "quantifier": "all addresses, contents, lengths, counters and placements of the stack frame", "why_tests_cant": "Overlaps, counters and residue on the stack are not visible in results.", "anchors": ["src/noise_xk/src/Noise_XK.c: Noise_XK_lbytes_eq, Noise_XK_bytes_to_nonce, Noise_XK_aead_encrypt, Noise_XK_aead_decrypt, Noise_XK_mix_hash, Noise_XK_mix_psk, Noise_XK_encrypt_and_hash, Noise_XK_decrypt_and_hash, Noise_XK_dh, Noise_XK_mix_dh", "src/noise_xk/src/XK.c: state_handshake_write, state_handshake_read (split)"]}
{"id": "C86", "title": "The check of the degree of a sharing in tests/mpmult.c accepts commitments to polynomials of degree at most t", "statement": "vsps_check returns 0 for commitments A_c = f(c)\u00b7base at 1, \u2026, 2t+2 to a polynomial f of degree at most t, whatever the challenge is, ends with 0 or 1 for all elements, and refuses malformed elements and the identity.", "quantifier": "all thresholds, polynomials, elements and challenges", "why_tests_cant": "The only test of the function calls it with values that it then refuses.", "anchors": ["src/tests/mpmult.c: _vsps, vsps_check, feldman_commitments, test_vsps"]}
{"id": "C87", "title": "The test programs toprf.c, mpmult.c and dkg.c succeed for all random values", "statement": "For all values that libsodium can draw: tests/toprf.c never reports that outputs differ and succeeds exactly if no share is 0; test_mpmul of tests/mpmult.c never reports a wrong product and succeeds exactly if the two shares that it evaluates are not 0; tests/dkg.c accepts all commitments and, if no final share is 0, succeeds exactly if the secrets sum to 40, as they do for the counter that replaces the random numbers in its build.", "quantifier": "all keys, coefficients, blinding scalars and contents of uninitialised buffers", "why_tests_cant": "A test program runs on one sample of random values; this says for which samples it succeeds.", "anchors": ["src/tests/toprf.c: main", "src/tests/mpmult.c: test_mpmul", "src/tests/dkg.c: main, test_dkg_start, test_dkg_finish", "src/utils.c: debian_rng_scalar"]}
{"id": "C88", "title": "The handshake messages of the Noise library work on memory as on values", "statement": "For every role, step, length, payload and received message, also a forged one: state_handshake_write and state_handshake_read on the bytes of the session's buffers, the message and the peers' keys have no undefined behaviour and read no unwritten byte; result, message or plaintext, the buffers of the session, the peer that was found and the two transport keys are those of the functions on values used by the other properties; nothing else in memory changes, except that zeros are left in the stack frames of the callees.", "quantifier": "all layouts of the buffers that do not overlap, all contents, lengths, roles, steps and peers", "why_tests_cant": "Reads of unwritten bytes, writes beside the buffers and residue on the stack do not show in results.", "anchors": ["src/noise_xk/src/XK.c: state_handshake_write, state_handshake_read"]}
{"id": "C89", "title": "The transport messages of the Noise library work on memory as on values", "statement": "state_transport_write and state_transport_read write the ciphertext or plaintext of the functions on values, advance the counter by one exactly on success, and erase the nonce; a failed decryption leaves zeros in place of the plaintext, other errors leave the memory as it was.", "quantifier": "all addresses, contents, lengths and counters", "why_tests_cant": "A counter at its limit is not reached by tests; residue is not visible in results.", "anchors": ["src/noise_xk/src/XK.c: state_transport_write, state_transport_read"]}
{"id": "C90", "title": "The file of authorised Noise keys is loaded as it is written", "statement": "load_authkeys registers with the device exactly the peers of the file, each with the key and the name of its line, after which the device answers every call as one with these peers; a faulty line is reported; no file content causes undefined behaviour.", "quantifier": "all files, devices, heaps and later calls", "why_tests_cant": "The files of a test are well-formed; reads of indeterminate memory and lost lines do not show.", "anchors": ["src/noise_xk/example/xk-ex.c: load_authkeys (69-115)"]}
{"id": "C91", "title": "The texts about cheaters name the right peers", "statement": "The text that tpdkg_cheater_msg writes for a record of the trusted party has the numbers of the record, the numbers of the peers it names, and fits into the buffer; the Python wrapper gives every record one entry in order, and the set it returns has the numbers of peers only.", "quantifier": "all records of C integers, all numbers of peers", "why_tests_cant": "Most of the texts are for protocol violations that tests do not produce.", "anchors": ["src/tp-dkg.c: tpdkg_cheater_msg, tpdkg_recv_err (1669-1760)", "python/pyoprf/__init__.py: tpdkg_get_cheaters (615-628)"]}
{"id": "C92", "title": "The states of the Python wrapper have the layout of the C structures", "statement": "Every member of the states of peer and trusted party has the same offset and size in the ctypes description as in the C structure; the wrapper finds in its buffer an address with the alignment of the structure and room for it.", "quantifier": "all addresses that the allocator can return, 64-bit and 32-bit platforms", "why_tests_cant": "The address of the buffer depends on the allocator; a wrong offset shows only in the member that is read.", "anchors": ["src/tp-dkg.h: TP_DKG_TPState, TP_DKG_PeerState (144-262)", "python/pyoprf/__init__.py: TP_DKG_TPState, TP_DKG_PeerState (463-528), tpdkg_start_tp, tpdkg_peer_start"]}
{"id": "C93", "title": "Connections of the multiplexer are open, checked and closed", "statement": "After any calls of connect, read, send and close: a peer marked as connected has an accepted, open socket, nothing is read or sent after close, data goes only over connections whose certificate and host name were checked, and no socket is forgotten open.", "quantifier": "all sequences of calls and all answers of network and other side", "why_tests_cant": "A test has a friendly network and does not try a wrong certificate.", "anchors": ["python/pyoprf/multiplexer.py: Peer (6-72)"]}
{"id": "C94", "title": "The check of shares in the test of the key generation finds wrong shares", "statement": "shuffle of tests/tp-dkg.c stays inside the array and permutes it; verify_shares accepts shares on one polynomial of degree below the threshold and refuses all others.", "quantifier": "all lists of shares, thresholds and values of rand()", "why_tests_cant": "The test itself samples: it draws some subsets of the shares.", "anchors": ["src/tests/tp-dkg.c: shuffle, verify_shares (25-77)"]}
{"id": "C95", "title": "The test program of the key generation runs the protocol to a correct end", "statement": "The simulated network of tests/tp-dkg.c delivers what is sent, in order; for all admissible arguments a run of honest parties ends with return value 0, the program refuses other arguments, and it returns 0 only if no cheater was recorded and the shares passed the check.", "quantifier": "all n and t, random values, clocks within the window, contents of uninitialised memory and values of rand()", "why_tests_cant": "The makefile runs the program once, with 3 peers and threshold 2.", "anchors": ["src/tests/tp-dkg.c: _send, _recv, main (79-99, 357-584)"]}
{"id": "C96", "title": "The tests of the Python wrapper pass and test what they claim", "statement": "Each test of python/tests/test.py for the OPRF, the sharings and 3hashTDH passes for all random values, except for those for which a value is 0; the tests notice a wrong result of the function they are about.", "quantifier": "all keys, blinding scalars, coefficients, updates and session ids; all wrong functions", "why_tests_cant": "A test is run with one set of random values and one library.", "anchors": ["python/tests/test.py (8-110, 149-198)", "python/examples/3hashtdh.py"]}
{"id": "C97", "title": "The test of the vectors accepts exactly the vectors of RFC 9497", "statement": "test.c returns 0 for a vector exactly if blinded element, evaluated element and output are those of RFC 9497 for input, key and blinding scalar; the header written by testvecs2h.py contains the bytes of the hexadecimal strings.", "quantifier": "all vectors and strings", "why_tests_cant": "The program is run with two vectors, both right.", "anchors": ["src/tests/test.c", "src/tests/testvecs2h.py"]}
{"id": "C98", "title": "The fuzzing programs call the library as it must be called", "statement": "msg0.c writes a message that peers accept; a pass of peer-start.c is defined for every test case; tpdkg_msg_parser.py prints the messages of a file with their fields, and its loop ends for every file.", "quantifier": "all random values, times, test cases and files", "why_tests_cant": "The fuzzer rarely finds a message with a valid signature, and nothing tests the fuzzing programs.", "anchors": ["src/tests/fuzz/msg0.c", "src/tests/fuzz/peer-start.c", "src/tests/fuzz/tpdkg_msg_parser.py"]}
{"id": "C99", "title": "The Python test of the raw key generation passes and detects wrong shares", "statement": "test_raw_dkg passes for five dealers that draw as libsodium does unless the key or a final share is 0; for arbitrary final shares it passes exactly if they lie on one polynomial of degree less than 3 with a nonzero value at 0; the key is the sum of what the dealers drew.", "quantifier": "all random values and all final shares", "why_tests_cant": "It is the test: one run with random values, and no run with wrong shares.", "anchors": ["python/tests/test.py:112-147", "python/pyoprf/__init__.py"]}
{"id": "C100", "title": "The Python test of the key generation with a trusted party runs the protocol to a correct end", "statement": "test_tp_dkg and the example tpdkg_test.py pass for all random values, clocks within the window and contents of the buffers unless the key or a final share is 0; the main loop ends; the check of the shares is complete; the protocol is bound to the name that the test states.", "quantifier": "all random values, clocks and buffers", "why_tests_cant": "It is the test: one run with one clock, and nothing compares the name with what the C code reads.", "anchors": ["python/tests/test.py:200-286", "python/examples/tpdkg_test.py", "python/pyoprf/__init__.py"]}
{"id": "C101", "title": "The test build with corrupted shares provokes exactly the intended complaints", "statement": "Under UNITTEST_CORRUPT the shares of dealer 1 for the peers 2 to t are altered and all others are not; an altered share never passes the check against the commitments; peer 1 accuses the peers 2 to t, each of these accuses peer 1, the others nobody; the altered code accesses only its buffers.", "quantifier": "all polynomials, 2 <= t <= n <= 254", "why_tests_cant": "The build is run with 5 peers and threshold 3 and nothing checks which complaints come.", "anchors": ["src/tp-dkg.c:1040-1060", "src/tp-dkg.c:1135-1165"]}
{"id": "C102", "title": "The protocol is the one of the documentation", "statement": "Announcement, acceptance of messages, transcript and the limit of complaints are as described in docs/tp-dkg.txt; the transcript determines the messages.", "quantifier": "all parameters, buffers, times and lists of messages", "why_tests_cant": "Both sides of every test use the same code, so a difference to the documentation is invisible.", "anchors": ["docs/tp-dkg.txt", "src/tp-dkg.c"]}
{"id": "C103", "title": "The Noise example accepts exactly the peers of its key file", "statement": "The example program of the Noise library runs to its end exactly if the public key of the initiator stands in the file of authorised keys; the responder then knows this key, and each side receives the text of the other. Otherwise the responder refuses the third message and shows nothing.", "quantifier": "all static and ephemeral keys and all contents of the file", "why_tests_cant": "The example is run with one pair of keys and one file.", "anchors": ["src/noise_xk/example/xk-ex.c"]}
{"id": "C104", "title": "Several devices on one heap do not disturb each other", "statement": "Every program that creates, uses and releases any number of Noise devices and their sessions on one heap, in any order and with each call depending on all answers so far, uses no memory that is not allocated, gives the results it gives on plain values and leaves exactly the blocks that the release of a device leaves. Each device answers as it does alone, and two devices that know each other exchange messages unchanged.", "quantifier": "all programs, keys, names, messages and heaps", "why_tests_cant": "The ways in which calls on several devices can be interleaved are unbounded.", "anchors": ["src/noise_xk/src/XK.c"]}
{"id": "C105", "title": "The integer helpers of the Noise library compute what their names say", "statement": "Comparisons without branches, arithmetic on 128 bits in the three implementations for different compilers, loads and stores in both byte orders on all platforms and unrolled loops give the mathematical result, and what is undefined is undefined in all implementations.", "quantifier": "all words, shift distances, platforms and buffers, and all loop bodies", "why_tests_cant": "There are 2^256 pairs of operands, and a test runs with one compiler on one platform.", "anchors": ["src/noise_xk/include/karmel/minimal/FStar_UInt_8_16_32_64.h", "src/noise_xk/include/karmel/minimal/FStar_UInt128_Verified.h", "src/noise_xk/include/karmel/minimal/fstar_uint128_msvc.h", "src/noise_xk/include/karmel/minimal/fstar_uint128_gcc64.h", "src/noise_xk/include/karmel/krml/lowstar_endianness.h", "src/noise_xk/include/karmel/krml/internal/target.h"]}
{"id": "C106", "title": "The Noise example uses only its own memory and releases it", "statement": "The example program, with every allocation and release in the order of its source, returns what the program on values returns, never touches memory that it did not allocate, has no undefined behaviour outside the loading of the key file, and releases what it allocated.", "quantifier": "all initial heaps, secret and ephemeral keys, and all contents of the key file", "why_tests_cant": "The example runs with one pair of keys and one file. Leaks and accesses to released memory do not change what it prints.", "anchors": ["src/noise_xk/example/xk-ex.c:28", "src/noise_xk/example/xk-ex.c:117-297"]}
{"id": "C107", "title": "Fuzzing of the key generation tries every test case from the same state to the end of the protocol", "statement": "fuzz_loop skips cases that are too short, ends with an error at the first case that is refused, runs every other case to the end of the protocol, and puts the states back before the next case. Without cases the program is the test program.", "quantifier": "all lists of test cases, all states of the trusted party, the peers and the network, all numbers of parties, every step, and every behaviour of the library that is built without its checks", "why_tests_cant": "A fuzzer reports crashes. That no case gets beyond the next step, or that it starts from a different state than the first one, does not show in its output.", "anchors": ["src/tests/tp-dkg.c:121-225", "src/tests/tp-dkg.c:226-353", "src/tests/tp-dkg.c:483-486", "src/tests/tp-dkg.c:527-530"]}
{"id": "C108", "title": "Built for fuzzing, recv_msg accepts what it accepts otherwise, and differs only in the time and the signature", "statement": "recv_msg of the library built for fuzzing accepts every message that the library built for use accepts. What it refuses is refused by the other one with the same code. A message that only the fuzzing build accepts is refused by the other one for its time or its signature. It accepts exactly the messages whose length, number, sender, recipient and session are the expected ones. Every step of the trusted party and of the peers, and every start of a peer, that succeeds in the build for use succeeds in the build for fuzzing, with the same output and, but for the time stamps, the same state.", "quantifier": "all buffers, offsets, lengths, expected fields, keys, clocks, windows and last time stamps, and every signature scheme", "why_tests_cant": "The two builds are never run on the same messages, and the fuzzer only sees one of them.", "anchors": ["src/tp-dkg.c:125-155", "src/tp-dkg.c:683-1667"]}
{"id": "C109", "title": "The programs that make test cases write what the trusted party or the first peer gets in the chosen step", "statement": "fuzz-dump and fuzz-dump-peer run like the test program. In the chosen step they write the input of the trusted party or of the first peer to the named file and end. If the step is not reached, they end like the test program. The fuzzer for the trusted party with that file as its test case gives the same bytes to the trusted party in the same state. Wrong arguments are reported.", "quantifier": "all argument lists, steps, states of the parties and the network, files that can or cannot be opened, and every behaviour of the library", "why_tests_cant": "The program is only run by hand. Whether the fuzzer uses the file in the state in which it was written cannot be seen from outside.", "anchors": ["src/tests/tp-dkg.c:101-119", "src/tests/tp-dkg.c:363-382", "src/tests/tp-dkg.c:487-489", "src/tests/tp-dkg.c:524-526", "src/tests/fuzz/makefile:24-27"]}
