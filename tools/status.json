{
 "C01": {
  "note": "The RFC 9497 output for every input of up to 255 bytes, key and blind; refusal of the identity and of failing mlock.",
  "status": "proved"
 },
 "C02": {
  "note": "Bijection between the scalars libsodium draws and the non-identity elements, for every input.",
  "status": "proved"
 },
 "C03": {
  "note": "Equal to an independent transcription of RFC 9380 for all admissible lengths; 255-byte tags refused.",
  "status": "proved"
 },
 "C04": {
  "note": "Hash input equals RFC 9497's and is injective in input and element.",
  "status": "proved"
 },
 "C05": {
  "note": "Exact success condition and output.",
  "status": "proved"
 },
 "C06": {
  "note": "Exact success condition and output.",
  "status": "proved"
 },
 "C07": {
  "note": "Holds up to 255 bytes; violated for longer inputs (truncation proved).",
  "status": "partial"
 },
 "C08": {
  "note": "Composition and commutation of evaluations.",
  "status": "proved"
 },
 "C09": {
  "note": "For n <= 254 and threshold >= 2; the other sizes are undefined behaviour, see C21.",
  "status": "proved"
 },
 "C10": {
  "note": "For every at least threshold-sized subset of dealt shares, in any order (n <= 254, threshold >= 2).",
  "status": "proved"
 },
 "C11": {
  "note": "Unique coefficient vector over all canonical vectors. libsodium never draws 0, so exact uniformity fails (C11_share_excludes_secret); C11_secrecy_statistical bounds the loss: the pairing leaves at most (t-1)*L^(t-2) of the (L-1)^(t-1) vectors unpaired.",
  "status": "partial"
 },
 "C12": {
  "note": "For all index lists; interpolation for distinct indexes.",
  "status": "proved"
 },
 "C13": {
  "note": "For every subset of successful evaluations that is large enough.",
  "status": "proved"
 },
 "C14": {
  "note": "For arbitrary responses.",
  "status": "proved"
 },
 "C15": {
  "note": "Rejection, and exact success condition for distinct non-zero indexes.",
  "status": "proved"
 },
 "C16": {
  "note": "For every announced list of indexes and all tags.",
  "status": "proved"
 },
 "C17": {
  "note": "Outcome depends only on the multiset of elements.",
  "status": "proved"
 },
 "C18": {
  "note": "Violated: malformed responses are skipped with return value 0 (proved for every group).",
  "status": "partial"
 },
 "C19": {
  "note": "For all session ids; exact success condition of each answer.",
  "status": "proved"
 },
 "C20": {
  "note": "Both combination modes.",
  "status": "proved"
 },
 "C21": {
  "note": "Safe for n <= 254, threshold >= 2 and at least one response; violated otherwise (proved).",
  "status": "partial"
 },
 "C22": {
  "note": "For n <= 254, threshold >= 1 and every draw of the random scalars.",
  "status": "proved"
 },
 "C23": {
  "note": "Exact acceptance condition; accepted shares lie on one polynomial of degree below the threshold.",
  "status": "proved"
 },
 "C24": {
  "note": "Exact list unless a commitment after the first is malformed or the identity; then the property is violated (proved).",
  "status": "partial"
 },
 "C25": {
  "note": "For all honest dealings; reconstruction from any threshold-sized subset.",
  "status": "proved"
 },
 "C26": {
  "note": "For arbitrary dealers, from the receivers' checks alone; shares canonical (others: C27).",
  "status": "proved"
 },
 "C27": {
  "note": "Holds for shares with bit 255 clear; violated otherwise (proved).",
  "status": "partial"
 },
 "C28": {
  "note": "Safe for n <= 254 and threshold >= 1; violated for n = 255, threshold 0 and no responses (proved).",
  "status": "partial"
 },
 "C29": {
  "note": "For every size and all distinct indexes: two-sided inverse, first row = Lagrange coefficients.",
  "status": "proved"
 },
 "C30": {
  "note": "Threshold >= 2, up to 254 peers, any dealer set of at least 2t-1 in any order.",
  "status": "proved"
 },
 "C31": {
  "note": "Exact for thresholds other than 1 and up to 254 peers; violated otherwise (proved).",
  "status": "partial"
 },
 "C32": {
  "note": "After every successful call of the trusted party the message announced for each peer has the size that the consuming peer step expects; every peer output has the size that the trusted party expects per peer.",
  "status": "proved"
 },
 "C33": {
  "note": "The total is the sum in every state; the steps with equal sizes report them so. Violated in the key reveal step: it reports unequal sizes even if they are all equal (proved).",
  "status": "partial"
 },
 "C34": {
  "note": "Both sides: every step with a length check refuses wrong lengths and changes nothing, and a run that is over fails. Violated (proved) in the complaint step of the trusted party, where the run goes on, and in step 10 of the peer, which checks nothing.",
  "status": "partial"
 },
 "C35": {
  "note": "recv_msg accepts exactly the serialised messages that match the expectation. The window of the timestamp is compared without wrap-around (hypothesis NoWrap); a second theorem needs no such hypothesis for the other conditions.",
  "status": "proved"
 },
 "C36": {
  "note": "The code violates the property: only the 47 header bytes are signed. C36_body_ignored and C36_not_authenticated prove the violation; C36_header_partial shows that the header is authenticated.",
  "status": "partial"
 },
 "C37": {
  "note": "Accepted timestamps never decrease, replays with an older timestamp are rejected and the window is respected. The comparison with the clock happens only for the first message: C37_ahead_of_clock proves that accepted timestamps may run ahead of the clock.",
  "status": "partial"
 },
 "C38": {
  "note": "Trusted party: done after at most 10 calls and failing from then on. Peer: done after at most 11 calls and failing from then on.",
  "status": "proved"
 },
 "C39": {
  "note": "Every error of a peer ends its run. Trusted party: every error outside the complaint step ends the run. Violated in the complaint step (proved).",
  "status": "partial"
 },
 "C40": {
  "note": "Handshake steps 2 and 3 and share step 5, for all n, i, j and contents.",
  "status": "proved"
 },
 "C41": {
  "note": "Steps 1, 4 and 6, for all n and contents.",
  "status": "proved"
 },
 "C42": {
  "note": "Bound and stability of the log in every call, and a report for every rejected message, except for an invalid long-term signature in step 1, which is not reported (proved).",
  "status": "partial"
 },
 "C43": {
  "note": "Trusted party: for arbitrary messages and every result. Peers: at every time no duplicates and within capacity; after a successful step exactly the announced pairs; in range if the announced ones are. The code does not check the range of the accused: C43_peer_range_violated.",
  "status": "partial"
 },
 "C44": {
  "note": "Verdict of the trusted party against ShareRight (key commitment, decryption, Feldman equation) for every answered complaint of another peer whose stored message is authentic; shares dealt by the modelled dkg_start are right.",
  "status": "proved"
 },
 "C45": {
  "note": "Violated: the report with code 7 has the complainer as peer, and the message function names the complainer (proved). There is always a second report that names the accused (proved).",
  "status": "partial"
 },
 "C46": {
  "note": "For all histories of calls with arbitrary inputs: if the share changes, the history contains the transcript hash sent by the peer and an accepted, authentic OK for the same transcript.",
  "status": "proved"
 },
 "C47": {
  "note": "OK iff all hashes agree (C47_confirms_iff); trusted party and peers that saw the same broadcasts have the same hash (C47_same_broadcasts, C47_peers_agree).",
  "status": "proved"
 },
 "C48": {
  "note": "All calls of all parties along the schedule of the test driver return 0, all parties finish, no cheater, no complaint, and the final shares lie on one polynomial of degree < t whose value at 0 is the sum of the secrets drawn (C48_honest_run_partial); t of them reconstruct it (C48_shares_reconstruct_partial). Missing: clocks of peers that are behind the clock of the trusted party at its start; for them the property is violated (C48_late_clock_refused).",
  "status": "partial"
 },
 "C49": {
  "note": "Defined behaviour for all inputs and buffer lengths outside three cases; in each of these (no log file in steps 2 and 3, complaint counts beyond the input, t=0 in step 7) undefined behaviour is proved.",
  "status": "partial"
 },
 "C50": {
  "note": "Defined behaviour for all histories from the start on as long as no session used in steps 3 to 5 was freed after a failed handshake and the announced numbers of complaints are at most n; the cleanup is defined iff no session was freed. Violations proved from reachable histories: double free in the cleanup, use after free in step 4; over-read and overflow by the number of complaints. Assumes the session slots are NULL at first, as in the driver of the tests.",
  "status": "partial"
 },
 "C51": {
  "note": "Exact acceptance conditions of both sides, and agreement of all parameters for t>=2. Violated (proved): the trusted party accepts t=1, which no peer accepts; a peer accepts an index above n.",
  "status": "partial"
 },
 "C52": {
  "note": "All reports outside a list of codes are explained; those on the list are proved not to be, and one of them is produced for every message with a wrong length field.",
  "status": "partial"
 },
 "C53": {
  "note": "A confirmation returned with success is handed out to all peers. If the step returns 3 (in particular with NO) nothing is handed out (proved).",
  "status": "partial"
 },
 "C54": {
  "note": "Handshake for all keys, prologues and payloads up to the size limit; transport for all interleavings of sending and delivery in both directions.",
  "status": "proved"
 },
 "C55": {
  "note": "Nonces and out-of-turn reads proved. An out-of-turn write is refused but sets the step to 4 and makes the session unusable (proved); the claim does not hold there.",
  "status": "partial"
 },
 "C56": {
  "note": "send_msg and recv_msg against a separate serialisation; little-endian host.",
  "status": "proved"
 },
 "C57": {
  "note": "For all arrival schedules: one slot per peer, a slot holds only what was read from its peer (and processed), every answer is processed once, and at least the requested number of slots is filled when gather returns. Violated (proved): failed reads, closed connections and refused pending packets count as answers, so fewer peers than requested may have answered.",
  "status": "partial"
 },
 "C58": {
  "note": "Per function the exact checks of the wrapper and that the C function is well defined on its domain. evaluate, unblind and _3hashtdh reject everything else. Violated (proved with witnesses): blind, finalize, coeff, create_shares, thresholdmult, threshold_combine, threshold_evaluate, dkg_start, dkg_finish, dkg_reconstruct, tpdkg_peer_start, tpdkg_start_tp.",
  "status": "partial"
 },
 "C59": {
  "note": "Against a token-by-token specification with HMAC and HKDF.",
  "status": "proved"
 },
 "C60": {
  "note": "Peer names are not modelled.",
  "status": "proved"
 },
 "C61": {
  "note": "Levels as numbered in the library; also for the helpers of tp-dkg.c that encrypt and decrypt the shares.",
  "status": "proved"
 },
 "C62": {
  "note": "Proved for arbitrary messages: same commitments, no complaints, one polynomial and one key, unless two transcripts collide. Violated (proved with witnesses) where the code does not check: malformed commitments hide later dealers, a peer does not check its own dealing against what was broadcast, and the topmost bit of a share is ignored by the verification but not by the sum.",
  "status": "partial"
 },
 "C63": {
  "note": "Grounds are proved for all steps. A peer that sends nothing wrong is not named in any run, except as the complainer of an unanswered complaint, where the code names the wrong peer (witness).",
  "status": "partial"
 },
 "C64": {
  "note": "Proved for successful calls in all well-formed states: commitments and shares, the messages with shares, the answer, and the five calls together.",
  "status": "proved"
 },
 "C65": {
  "note": "Every complaint is about a wrong share, whatever the others send. Every wrong share leads to a complaint if the later commitments are well-formed; otherwise violated, with a whole run as witness.",
  "status": "partial"
 },
 "C66": {
  "note": "device_free leaks the serialisation key and the peers' blocks and erases nothing: C66_secrets_left_violated; C66_free_partial counts what stays. For the memory of sessions see C78.",
  "status": "partial"
 },
 "C67": {
  "note": "Records of devices and peers are exchangeable (C67_device_as_peer_violated, C67_peer_as_device_violated) and a cut record is read past its end (C67_short_violated). The round trips and the condition for opening hold.",
  "status": "partial"
 },
 "C68": {
  "status": "partial",
  "note": "Session setup is proved without restriction on the keys; delivery for messages below 2^32 bytes. Violations: C68_long_message_violated, C68_str_prologue_violated, C68_unknown_peer_violated, C68_early_pubkey_violated, C68_responder_first_violated, C68_short_key_violated, C68_array_key_violated."
 },
 "C69": {
  "status": "partial",
  "note": "Proved for all calls before complaints are judged; in the judging call the peer is named only for a complaint that the accused has not answered, or if the accused knows two keys with the same code on one ciphertext. Violation: C69_silence_violated, a reachable state in which an honest complainer is named."
 },
 "C70": {
  "status": "proved",
  "note": "Composes C48/C62, C32 and C16/C13/C20 over the models of all parts; the key 0, which has negligible probability, is noticed by oprf_Unblind."
 },
 "C71": {
  "status": "partial",
  "note": "Everything but the status of unusable sessions is proved for all sequences of calls; violation: C71_status_violated, an unusable session still announces a message of the handshake."
 },
 "C72": {
  "status": "partial",
  "note": "oprf_Finalize and oprf_Unblind proved; oprf_Blind and dkg_start in part. Violations: C72_lock_left_violated, C72_input_left_violated, C72_share_left_violated, C72_polynomial_left_violated, C72_coefficient_left_violated."
 },
 "C73": {
  "status": "partial",
  "note": "The attack and the exit status are proved; violations: C73_output_violated (a banner on standard output), C73_argument_violated (reads beyond a short argument)."
 },
 "C74": {
  "status": "partial",
  "note": "Proved when the first step succeeds; violations: C74_error_violated (a failed first step keeps the key for good), C74_free_violated (tpdkg_peer_free erases nothing)."
 },
 "C75": {
  "status": "proved",
  "note": "The bound on the unpaired vectors is part of the statement; it comes from libsodium never drawing 0."
 },
 "C76": {
  "status": "proved",
  "note": "For shares with the same index and 2 <= t <= n <= 254, as toprf_mpc_mul_start demands."
 },
 "C77": {
  "status": "proved",
  "note": "The hashed session id is assumed not to be the neutral element."
 },
 "C78": {
  "status": "partial",
  "note": "Refinement, release and numbers are proved. Erasure is violated: Noise_XK_session_free zeroes nothing (C78_secrets_violated)."
 },
 "C79": {
  "status": "proved",
  "note": "Both directions of the refinement and the exact number of blocks that are left."
 },
 "C80": {
  "status": "proved",
  "note": "The two cases of C80_released and C80_exact together cover every run; that the second one happens is C50_double_free_violated."
 },
 "C81": {
  "status": "proved",
  "note": "About the program text: traces of calls, branches and accesses. Time inside libsodium, compiler and hardware are trusted."
 },
 "C82": {
  "status": "proved",
  "note": "As C81. An evaluation under a secret of 0 differs in the return value of libsodium, which the statement allows."
 },
 "C83": {
  "status": "proved",
  "note": "As C81. A coefficient of 0 shows in the return value of crypto_scalarmult_ristretto255_base; libsodium does not draw it."
 },
 "C84": {
  "status": "proved",
  "note": "Libsodium build; the state of the hash is a value."
 },
 "C85": {
  "status": "proved",
  "note": "Libsodium build. Decryption in place is excluded: mix_hash reads the ciphertext after it; XK.c does not do that."
 },
 "C86": {
  "status": "partial",
  "note": "Violated: correct sharings are refused for all but at most t challenges (C86_correct_sharing_refused, defect 36). Proved: result 0 or 1, malformed elements and the identity are refused."
 },
 "C87": {
  "status": "proved",
  "note": "The shares that are 0 with negligible probability make the programs end with an error, as stated."
 },
 "C88": {
  "status": "proved",
  "note": "The struct of the session, allocation and freeing are in Model/SessionMem.lean. The buffer of the peer's static key is zero before the responder's last message, as session_create_responder leaves it."
 },
 "C89": {
  "status": "proved",
  "note": "As C88."
 },
 "C90": {
  "status": "partial",
  "note": "Holds for files of complete lines. The code violates the rest: C90_rest_ignored_violated, C90_result_violated (errors are not reported), C90_uninit_violated, C90_nameless_violated (indeterminate memory is read), C90_cut_violated, C90_previous_name_violated (wrong names)."
 },
 "C91": {
  "status": "partial",
  "note": "The texts are right and complete, also in buffers of other sizes up to the terminator (C91_buffer). The set of the wrapper is not: the test of the range is never true (C91_range_violated) and 0 is added (C91_zero_violated)."
 },
 "C92": {
  "status": "partial",
  "note": "The layouts agree on 64-bit platforms and the state is aligned at 32. The code violates the rest: C92_align_violated (64 is needed), C92_raises_violated, C92_word_violated (32-bit platforms)."
 },
 "C93": {
  "status": "partial",
  "note": "Checked without the argument ssl_cert. The code violates the rest: C93_cert_violated, C93_tcp_violated, C93_send_violated, C93_reconnect_violated."
 },
 "C94": {
  "status": "partial",
  "note": "Correct shares pass; wrong shares are found for some values of rand(), not for all: C94_sample_violated, C94_wrong_violated."
 },
 "C95": {
  "status": "partial",
  "note": "The run succeeds if no share is 0. The code violates the rest: C95_zero_violated (a share that is 0), C95_queue_violated and C95_drop_violated (the network), C95_threshold_violated (undefined behaviour for t < 2)."
 },
 "C96": {
  "status": "partial",
  "note": "All tests but test_raw_dkg and test_tp_dkg, which are C99 and C100. The code violates the last part: C96_tcombine_violated (threshold_combine is not tested), C96_combinations_violated (one combination only)."
 },
 "C97": {
  "status": "partial",
  "note": "Proved for inputs up to 255 bytes and strings of even length. The code violates the rest: C97_long_input_violated, C97_odd_violated."
 },
 "C98": {
  "status": "partial",
  "note": "msg0.c and the loop of the parser are right. The code violates the rest: C98_peer_start_violated, C98_seed_violated (read beyond the key), C98_parser_violated (the session id is printed as data)."
 },
 "C99": {
  "status": "partial",
  "note": "The test passes and finds shares that do not fit each other. It does not find that the key is not the sum: C99_key_violated. C99_fails_empty: the branch that prints failing peers is never reached."
 },
 "C100": {
  "status": "partial",
  "note": "The run is right for all clocks within the window. The name is not the one that the test states: C100_name_violated."
 },
 "C101": {
  "status": "proved",
  "note": ""
 },
 "C102": {
  "status": "partial",
  "note": "The announcement has the documented fields, the initial transcript is the documented one, and the transcript binds the messages. The code differs from the documentation: C102_timeout_violated (the window), C102_transcript_violated (the update), C102_complaints_violated (no limit per peer)."
 },
 "C103": {
  "status": "partial",
  "note": "Acceptance, refusal and the printed text hold for all keys, and the refusal for all files. Peers after a faulty line are refused: C103_rest_ignored_violated. The text for the initiator is cut: C103_cut_violated."
 },
 "C104": {
  "status": "proved",
  "note": "Refinement of every program with any number of devices, the exact number of blocks that are left, independence of each device from all others, and the course of a conversation of two devices on one heap."
 },
 "C105": {
  "status": "partial",
  "note": "All functions are right for all operands, except two: the complement in the implementation for MSVC is 0 for every number (C105_msvc_not_violated), and store64_le on an unknown big-endian platform writes the bytes of each half in the wrong order (C105_nonce_violated)."
 },
 "C106": {
  "status": "partial",
  "note": "Same result as the program on values for all files and heaps (C106_same), existing memory untouched, and undefined behaviour only while the file is loaded. Not everything is released: after success the keys for storage and the records of the peers are left (exact number in C106_accepted_partial), after a refusal or without file also both private keys (C106_left_violated, C106_no_file_violated)."
 },
 "C107": {
  "status": "partial",
  "note": "Short cases are skipped, a refused case ends the program, the structures are put back, and without cases the main loop is that of the test program (C107_skipped, C107_refused, C107_restored_partial, C107_no_cases, and for the variant for peers C107_peer_*). Violated: in steps 1 and 4 no case runs to the end of the protocol, because the output of the fuzzed step is sent again (C107_stale_violated, and C107_fuzzing_violated for the trusted party of the library built for fuzzing); arrays behind the pointers and the network are not put back, so that in the variant for peers the second case runs without the messages of the other peers (C107_peer_network_violated); and there the cases come one round too early, while the second peer has not yet used its message (C107_peer_early_violated)."
 },
 "C108": {
  "status": "proved",
  "note": "Seven theorems, for messages of all lengths; C108_fields for lengths from 111 bytes on, which is what all callers pass. C108_tp, C108_peer and C108_peer_start are about whole steps, with a clock that stands still during a step."
 },
 "C109": {
  "status": "partial",
  "note": "The content of the file, its use as a test case, the end without a file and the arguments are proved (C109_content, C109_seed, C109_short, C109_not_reached, C109_args, and for peers C109_peer_content, C109_peer_not_reached). Violated: without a step the program reads from NULL, although the usage message allows it (C109_no_step_violated); a file that cannot be opened is not noticed (C109_unwritable_violated)."
 }
}
