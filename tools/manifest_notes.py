NOTES = {
 "C101": "numbers on the wire are below 2^64 (sayable), as in the code. That both ends come to rest is not claimed; the conditions of C101_no_stall and C101_all_said on the history are those of C100; C101_carried, C101_delivered, C101_ended, C101_all_said and C101_whole are about flows whose number no other flow of their end has had, as the statement says, since numbers are taken again after a flow is closed; that the other end then has one receiving flow with it is proved (met_once)",
 "C100": "time is not modelled. Calls from callbacks inside of RTWebSocket::close are not modelled. The states of a flow's window (sent, through) are the model's",
 "C99": "time is not modelled: when messages expire is part of the history. Calls that an application makes from callbacks inside of RTWebSocket::close are not modelled; notifyWhenWritable isn't either",
 "C98": "the model begins after init(). Calls that an application makes from callbacks inside of RTWebSocket::close are not modelled. The numbers in C98_codec are below 2^64, as in the code",
 "C97": "the socket is given first and once; the client's and owner's code is arbitrary. C97_flushed_partial is for clients that write only in their callback for writing (as the interface demands; RTMP and SimpleWebSocket do) on an adapter that stays with its run loop",
 "C96": "composition of C94 and C95. To be delivered everything: the receiving application has neither closed nor paused, and nothing undefined has happened there (C95_calm_partial says when it can't)",
 "C94": "histories that begin with init(). Chunk stream ids of 64 and more least significant byte first, as everybody does it and not as the document says. In the completeness theorems: nothing undefined has happened (see the defects of C95 for when it does), the application has neither closed nor paused. What is said by acknowledgements, window sizes and peer bandwidths has no meaning for what is delivered",
 "C93": "requests without body, made of a start line of three parts and valid header fields (RFC 7230, without obsolete line folding), of less than 2^64 bytes. SHA-1 is a parameter. What the code doesn't look at (Host, the version of HTTP, the length of the key) is not in the specification of a request either; Connection is only searched for the letters of upgrade",
 "C01": "encode/parse for every 64-bit value; minimality against every byte string that parses to it.",
 "C02": "total characterization of parse with a limit. Calls with limit=nullptr are not modelled.",
 "C03": "field and option round trips, option lists, in-bounds on arbitrary bytes.",
 "C04": "every call sequence after a valid init. Calls that dereference null (commit without start) are a distinct outcome and excluded.",
 "C05": "every list of chunks of pushes that all succeed, header flags and timestamps, any 0xff padding.",
 "C06": "arbitrary byte strings.",
 "C09": "refinement to a sequence of named values for every history; traversals, find, clear, name stability and in-bounds links. valuesDo bodies that change the list are not modelled.",
 "C10": "all histories of valued adds, removals and reorderings; the valueless add is shown to break it (C10_valueless_add_wrong).",
 "C08": "every history of add/remove/addSet/removeSet/clear; canonical, unique and minimal.",
 "C11": "all histories of issuer and user calls, calls from inside callbacks included. Assumes a callback is installed before the receipt finishes (C11_late_callback_wrong_report shows the wrong second report otherwise) and that the issuer doesn't drop fragments while the same receipt's callback executes.",
 "C14": "every execution of an accepted flow that its user leaves open: exact set of delivered messages at every moment, prefix property, full delivery, completion. Timers other than the linger alarm and the reception order 'hold' are outside these theorems (C15_only_sent covers them for safety).",
 "C15": "same model as C14; C15_only_sent holds for arbitrary user behaviour, callbacks included.",
 "C17": "every receive history (any chunks) and every packet below 64 KiB; the appended bytes are parsed with the packet parser and decoded with the sender's decoder.",
 "C18": "every receive history and every amount of room; also: a refused acknowledgement leaves the packet unchanged, and 60 free bytes are always enough.",
 "C19": "arbitrary chunks and calls; executions in which an exception is thrown (see C16) end there.",
 "C20": "all histories of any number of flows of a session (writes, transmissions, acknowledgements with arbitrary ranges, losses, timeouts, closings). Acknowledgements include those of a dishonest peer. Callbacks that call back into the same flow are not modelled.",
 "C21": "all histories of any number of flows of a session (writes, transmissions, acknowledgements with arbitrary ranges, losses, timeouts, closings); 64-bit counters. A closed flow, which the session has forgotten, keeps its last count. Callbacks that call back into the same flow are not modelled.",
 "C58": "any history and any state of the reader; packets below 64 KiB, sequence numbers below 2^64.",
 "C22": "all executions of both sides over a network that loses, repeats and reorders (an authenticated one: it doesn't invent packets); any behaviour of the receiving user.",
 "C62": "composition of the models of the sending side, packets, the parsers and the receiving flow. A flow that is closed may add an empty message at the end, which is only given to the receiving user if the sender's clock goes backward.",
 "C27": "all executions of two hosts with different epochs over a network that loses, duplicates, delays and reorders packets; exact rational time. Samples are characterized for transits below the wrap period of 262 s (beyond it 16 bits can't tell).",
 "C28": "every sequence of marks and of delayed or reordered reports within the stated window.",
 "C36": "every byte string, both directions.",
 "C39": "every type, timestamp, stream id and payload; parsers characterized on arbitrary bytes.",
 "C40": "all pairs of 32-bit timestamps; exactly half way apart each is both before and after the other (C40_half_way_ambiguous), which the claim excludes.",
 "C42": "arbitrary buffers: incremental computation, all burst errors up to 32 bits, Internet checksum value, verification and single word errors. For odd lengths the last byte is the low half of its word (not as in RFC 1071, C42_cksum_odd_not_rfc1071).",
 "C50": "all ciphertexts and ids, any byte order of the two hosts.",
 "C59": "all histories with any clock, exact rational arithmetic.",
 "C60": "all sequences of non-negative samples and timeouts, exact rational arithmetic.",
 "C61": "all histories, exact rational arithmetic.",
 "C23": "every history of acknowledgements, losses and timeouts with consistent byte counts below 2^57; tests of times are arbitrary booleans. Bounds, growth, cuts, recovery and timeouts.",
 "C29": "any hash function; that forging needs the secret is stated as: acceptance implies the cookie carries the hash of its contents, the address and the secret.",
 "C30": "any number of sessions and any clock values, exact rational arithmetic.",
 "C35": "every sequence of calls that makes an address, arbitrary bytes for decoding. Text forms (inet_ntop and getaddrinfo) are not modelled.",
 "C37": "every path: equality with an independent description of resolution, merging with a base path, idempotence. The regular expression that takes a URI apart is not modelled.",
 "C38": "every string; reads past the terminator are a distinct outcome shown not to occur.",
  "C44": "every history of received datagrams, any primitives; numbers are read from the decrypted packets.",
 "C45": "any primitives with AES decryption inverting encryption and 32-byte MACs; one packet in every mode, and whole sessions with loss and reordering. Also the plain adapter.",
 "C46": "an exchange between any two configurations (static or ephemeral keys on either side) run through the option encodings; and for arbitrary received bytes, that acceptance never drops a requirement.",
 "C47": "the same exchanges, any MAC; Diffie-Hellman is assumed to commute. Also the plain adapter.",
 "C48": "arbitrary bytes as discriminators and certificates, described by the options in them; adapters made by init and the certificates parsed from them agree.",
 "C49": "all pairs of certificates, both adapters.",
 "C33": "every value tree (any nesting, keys, strings, numbers by their 64 bits). Missing members (null pointers) come back as undefined; values nested deeper than 32 are encoded but not decoded (C33_too_deep). Left out: one object in several places of a tree, cycles, arrays of 2^32 elements (whose encoding would not end).",
 "C34": "arbitrary byte strings.",
 "C41": "every message; arbitrary bytes; conversions of times with exact rational arithmetic (rounding of long double is not modelled). Of a dishonest sender the sum of decode time and offset may wrap at 2^64.",
 "C66": "every description and arbitrary bytes; exact rational arithmetic instead of long double. C66_equal needs ticks of at least 2^-63 seconds.",
 "C67": "all tracks.",
 "C52": "all histories of one thread, including what tasks, actions and timers do; nested run() is not modelled. Tasks of the performer-based adapter are C70.",
 "C69": "select-based run loop; all histories; nested run() is not modelled.",
 "C24": "all histories of an instance, application calls from inside callbacks included (Model/Instance.lean)",
 "C57": "all packets, in any number and order",
 "C74": "all histories of an instance, application calls from inside callbacks included",
 "C51": "every history of any number of threads, destructors with arbitrary application code and members included; atomics are sequentially consistent, the count has no bound, and retainers themselves are not accessed by two threads at once. A destructor that makes a retainer for its own object is excluded (C51_resurrected shows that it destroys twice). C51_pointers: a retainer moved to itself is emptied.",
 "C55": "RedirectorClient (Model/Redirector.lean): attempts spaced by at least 5 s and the minimum interval, retried until closed, silent after close, load factor told or a timer pending, no null flow used",
 "C75": "the registration is read back from the messages by the option parser (C03)",
 "C77": "statuses reported form a path of the connection's life; close() isn't reported",
 "C78": "sessions (Model/Sess.lean) with all timers: an invariant over all histories says what a flow with data waits for; one theorem per wakeup",
 "C79": "packets counted in what is sent; any continuation of any history",
 "C81": "sessions (Model/Sess.lean): an invariant for the acknowledgements owed, carried along any continuation of any history; packets with data counted in what arrived",
 "C83": "Model/Mobility.lean: all sessions of an instance with its secret and clock; the hash function is a parameter, what is assumed of it is in the statements; C83_foreign_check: the checks are not bound to a session, one can move by a check sent for another (to the same address)",
 "C82": "sessions (Model/Sess.lean): both directions of the idle limit, along any continuation of any history",
 "C86": "Model/Json.lean against an independent reader of RFC 8259 (Spec/Json.lean). Arithmetic on fractions is exact (in the code remainders are rounded to double); what log10l and powl yield for numbers from 2^64 or below 0.0001 is a parameter, of which ShiftOk (from 1 to 10) is assumed, so accuracy there is relative to it. Fifteen digits don't tell all doubles apart (C86_same_text).",
  "C88": "Model/Startup.lean against the wire formats of RFC 7016 (Spec/Startup.lean). Packets are joined at the plaintext (encryption: C38 and others); margins up to 32 bytes; the crypto adapter, the hash and the signature are parameters; what sessions do with the calls is in Model/Instance.lean. Messages that have no room are never sent and nothing tells the user (the none cases)",
 "C85": "all histories of the sending side of a session",
 "C25": "receiving side and sending side, every history.",
 "C63": "all histories; follows from an invariant about the position transmission resumes from.",
}
PARTIAL = {
 "C100": "Both theorems are for histories in which trimSendBuffer doesn't run by itself later (it asks for no transmission: C100_given_up shows the property false then) and outstandingThresh is raised only while a transmission is asked for, as measureRTT does. That the bytes in flight come down again is up to the other end (see C99_stall).",
 "C99": "False for the code in three respects, each with a witness: messages waiting in a flow that its writer closed are never settled when the connection is closed (C99_forgotten); a write to the flow or a close of the connection from the onFinished of an abandoned message changes the list under trimSendBuffer (C99_wild); with a limit on the bytes in flight below the smallest acknowledgement window both ends come to rest with a message unsent (C99_stall). What is said (C99_said), order (C99_settled), the frame (C99_framed) and what the other end has (C99_both, C99_all) hold for all histories; C99_complete_partial while the reader's connection isn't closed. Not proved: that with a sufficient limit everything is sent in the end",
 "C98": "False for the code in one respect, with a witness: when the connection ends between the arrival of a message and its deferred delivery, the reader is told that the flow is complete and never given the message (C98_cut). C98_complete_partial: until the connection is closed. All else for all histories",
 "C97": "False for the code in five respects, each with a witness: bytes arriving after the client left close the socket with output waiting (C97_cut); output waiting is never sent after moving to another run loop (C97_moved); the socket of a client that never read is never closed (C97_unclosed); a callback given from inside of the old one is forgotten if that answers no (C97_forgotten); a callback that closes the adapter and always has more is called without end (C97_endless)",
 "C95": "False for the code in four respects, each with a witness: when the other side raises its limit nothing asks for the stream, and what was written waits for something else to happen (C95_stalled); an application that writes in the onFinished of an abandoned message has the list moved away under trimSendQueues (C95_moved) or never gets out of it (C95_endless), and one that closes there has it emptied (C95_emptied). What is said on the wire (C95_wire), order, content, receipts, the end (C95_order, C95_written, C95_once, C95_told, C95_over), when it stops asking for the stream (C95_flushed, C95_graceful) hold without restriction on the application; that everything is sent, once it asks for the stream, and with limits of at least 2^32 is C95_sends_partial and C95_closes; that nothing undefined is done by an application that neither writes nor closes when told that a message was abandoned is C95_calm_partial.",
 "C92": "False for the code in one respect, with a witness: a message and the Close that wait to be written when the peer's own Close arrives are never written (C92_crossing). Order and nothing else (C92_order), what the peer hears (C92_heard), the end (C92_end) and shutdown() (C92_shutdown) hold for all applications and histories; that everything gets written: C92_written_partial, unless the connection has ended before the stream could be written to",
 "C91": "False for the code in three respects, each with a witness: frames after a Close are still delivered (C91_after_close), the connection isn't ended when the Close has been answered (C91_unclosed: however long one waits), and what arrives after shutdown() depends on the cuts (C91_shutdown). Never anything else than the beginning of what the frames say: C91_prefix, for all histories and applications whose stream has nothing after a Close. Exactly it: C91_received_partial, for applications that don't close or shut down. Rules broken or longer than 16 MB: C91_violation",
 "C90": "False for the code in four respects, each with a witness: closed while a packet is being delivered, the adapter goes on reading from the number of the closed socket (C90_stray); a callback asked for while another is being called is forgotten if that one answers no (C90_lost); a callback that closes the adapter and answers yes is called again (C90_after_close); a PerformerPosixPlatformAdapter that is destroyed without close() still runs its tasks (C90_destroyed). Everything else holds for all histories; the _partial theorems exclude exactly those cases. Order and number of the tasks: C52 and C70",
 "C89": "False for the code in one respect: numbers that are no port are accepted and cut to 16 bits (C89_port_wraps), and so is anything after the number (C89_rest_ignored). Exactly what is accepted, and that what is refused changes nothing, is C89_accepted_partial and C89_accepted_bare. The round trips and C89_injective hold for all addresses. inet_ntop and inet_pton are parameters (Net.Ok: inverse to each other, the usual characters and lengths); sscanf is modelled for the four formats used, as glibc does it for numbers out of range",
 "C87": "false as stated in one respect: of what the kernel finds, a hang-up alone (the reading end of a pipe after its writers are gone) is not looked at, so that the action for reading is not called though reading would not block, turn after turn (C87_hangup, for every history); what else is found is heard (C87_heard_partial). The other parts hold for all histories; C87_wild and C87_unwatched show that unregistering before closing is needed. The interest list of the kernel is modelled after epoll(7)",
 "C84": "false as stated: raising the capacity with setBufferCapacity wakes nobody (C84_raise_lost: an execution after which, whatever else happens, the flow stays writable and its user is never told); proved when the capacity is never raised (C84_told_partial). The other parts hold for all histories",
 "C80": "false as stated: with data waiting for a receiver without room, a timeout leaves no timer set that ends the session, which stays open for ever (C80_unnoticed), and each packet sent postpones the end by a timeout (C80_postponed); proved: never too early, the bound with that postponement if after each timeout something is sent (C80_in_time_partial), that such a session does end, as the postponements are limited by the congestion window (C80_ends_partial), and what watches an open session",
 "C76": "false as stated: calls from inside the CONNECTED callback write before the authentications (C76_not_first); proved for callbacks that don't call the client, with the exact messages, and that nothing is written before the connection is open",
 "C26": "violated as stated: what is counted is packets with acknowledgements, not packets that arrived, so a repeated acknowledgement of one later packet loses a fragment (C26_not_three). C26_three_partial gives the exact rule. Loss happens only so or by a timeout (C26_only, C26_timeout); what is sent again is reliable and not abandoned (C26_retransmit), and is sent before anything newer (C26_first)",
 "C71": "violated: when a hello finds a session to the same peer already opening, every flow waiting for a session not yet answered is moved to it (C71_misdirected, SendFlow.cpp:285-300). Holds for flows that were not moved (C71_peer_partial)",
 "C72": "C72_told holds for all histories. Violated in that a flow opened to the same peer from a completion callback while the session is being aborted stays bound to it and is never told (C72_forgotten); C72_rest_partial names that as the only exception",
 "C73": "reported once and with nothing left (C73_once), always gets there (C73_completes). Violated: shut down from the exception callback of a session being overridden, the completion is reported and then a session opens (C73_reopens); otherwise no new sessions (C73_no_new_partial)",
 "C70": "all interleavings of any number of threads, close called by the loop's thread. Order, at most once, no lost wakeup and returning only after the task hold. That a waiting call always returns holds unless the performer is closed (C70_returns_partial); a task thrown away by closing leaves its caller waiting forever (C70_never_returns, C70_waits_forever), and a waiting call in the loop's own thread starts its task although closed meanwhile (C70_started_closed)",
 "C53": "histories of fewer than 2^53 events (after that the double transaction counter no longer advances); once, own response, failure for all at close and termination of closing are proved; that unknown ids invoke nothing holds for ids that are numbers (C53_unknown_partial), C53_not_a_number shows that a NaN id answers the first unanswered request",
 "C68": "opening, distinct ids, routing and at-most-once opening hold for all histories of fewer than 2^53 events; closing without assertion failure holds unless a stream got the id 0 (C68_closed_partial), C68_half shows that a server answering createStream with 0.5 makes the client abort at close",
 "C56": "who is asked and in which order, turns within a priority, at most once per priority, kept until idle and requests heard hold for all histories, including writes scheduled while sessions are asked; that somebody waiting always has a pending notification holds only when sessions that send nothing do not cause writes at higher priorities (C56_wakeup_partial), and C56_waits_in_vain / C56_unheard exhibit histories of the code where it fails",
 "C31": "Integer times; actions do anything but call fireDueTimers and (for their own timer) addTimer. All parts are proved for all executions, except that the order of due times within one call needs the condition that no action schedules a timer for before its own due time: C31_order_partial, and C31_order_fails shows that it is necessary. C31_returns (the call ends) and C31_wakes go beyond the claim.",
 "C32": "All schedules, proved for distinct sequence numbers below 2^64 - 1, a clock that doesn't go back, callbacks that don't call the buffer, and an initial m_highestSeen other than 2^64 - 1 (C32_no_gap_partial: 0). The member is not initialized: C32_flush_uninitialized and C32_flush_uninitialized_order show what can happen; C32_same_number_lost shows why numbers have to be distinct.",
 "C64": "False for the code when the responder's key is static: the second answer makes keys from the erased secret, i.e. from public data alone (C64_second_answer_loses_secret, for all configurations). With an ephemeral responder nothing changes (C64_second_answer_partial). That the answer can be combined twice (src/Session.cpp:1364-1388 tests the state only before and after the work) is an argument in DESIGN.md, not a theorem.",
 "C65": "False for the code: requirements in a rejected answer stay in force, so the genuine answer ends in disagreement (C65_rejected_answer_counts) or the next packet uses a missing HMAC context (C65_rejected_answer_crashes). Proved for all answers: no key changes and nothing required before is dropped.",
 "C13": "Proved for flow ids and sequence numbers below 2^42 and front margins up to 12 bytes (all that FlashCryptoAdapter asks for); beyond, a full fragment doesn't fit (C13_huge_numbers_stuck). Also shown: a ready flow asked for data always sends.",
 "C43": "Barriers for every history of calls. Messages: counts below 2^31 round trip, and the parsed count is wrong for larger ones (C43_message_large_count_wrong: sign extension).",
 "C54": "The server period is as stated; the peer period is set from the server's field instead of its own (C54_peer_period_wrong).",
 "C16": "False for the code: two concrete histories end in an uncaught exception (C16_sequence_order_throws, C16_network_order_throws). Proved: no call fails for fragments of any well-formed stream whatever the user does, and the delivery loop ends for every input.",
 "C07": "Everything except iteration over a set containing 2^64-1, which never ends (C07_iteration_diverges_at_max). Removing a set from itself is not modelled.",
}
NOT_APPLICABLE = {}
