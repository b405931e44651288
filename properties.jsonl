{"id": "C01", "title": "VLU round trip and size", "statement": "Encoding any 64-bit unsigned value as a variable-length integer and parsing it back (with any bytes following it) returns exactly that value and exactly the number of bytes written; the encoding is between 1 and 10 bytes, and no shorter byte string parses to the same value.", "quantifier": "all values below 2^64, all trailing byte strings", "why_tests_cant": "2^64 values; tests sample a few boundaries", "anchors": ["src/VLU.cpp: VLU::encode, VLU::append, VLU::parse"]}
{"id": "C02", "title": "VLU parsing is total and in bounds", "statement": "Parsing a VLU from an arbitrary byte buffer with a limit never looks at or past the limit, answers 0 exactly when no terminating byte occurs before the limit, otherwise consumes exactly through the first terminating byte; the answered value is the base-128 value modulo 2^64, or, when saturation is requested, the maximum value whenever the true value does not fit.", "quantifier": "all finite byte buffers, both saturation modes", "why_tests_cant": "arbitrary (hostile) input of any length", "anchors": ["src/VLU.cpp: VLU::parse"]}
{"id": "C03", "title": "Length-prefixed fields and options round trip", "statement": "A list of options (typed values, bare types and markers) appended one after the other and followed by anything is parsed back into exactly that list; parsing an option or a field from arbitrary bytes consumes at least 1 and at most the available bytes, and the reported value always lies within the consumed bytes.", "quantifier": "all lists of options with arbitrary types and values; all byte buffers", "why_tests_cant": "unbounded lists and hostile buffers", "anchors": ["src/VLU.cpp: VLU::parseField, Option::parse, Option::append"]}
{"id": "C04", "title": "Packet assembly never exceeds the packet limit", "statement": "For every sequence of assembler calls after a valid initialization (margin and header fit in the buffer), the bytes written never exceed the configured maximum length; a push that answers false leaves the previously assembled bytes unchanged; rolling back a chunk restores the packet to what it was before the chunk was started.", "quantifier": "all operation sequences, all sizes", "why_tests_cant": "depends on every interleaving of partial pushes near the limit", "anchors": ["src/PacketAssembler.cpp"]}
{"id": "C05", "title": "Assembled chunks are parsed back exactly", "statement": "The chunk parser applied to a packet assembled by committing any list of chunks (each shorter than 64 KiB), with or without padding after it, dispatches exactly those chunks, in order, with the same types and payloads, and recovers the same header flags, mode, timestamp and timestamp echo.", "quantifier": "all chunk lists and header combinations", "why_tests_cant": "unbounded chunk lists", "anchors": ["src/PacketAssembler.cpp", "src/Session.cpp: ISession::onReceivePacket"]}
{"id": "C06", "title": "Chunk parsing of arbitrary packets is in bounds", "statement": "For any decrypted packet contents the parser dispatches a sequence of chunks each of which lies completely inside the packet, in increasing, non-overlapping position order, and never reads outside the packet.", "quantifier": "all byte strings", "why_tests_cant": "hostile input", "anchors": ["src/Session.cpp: ISession::onReceivePacket"]}
{"id": "C07", "title": "IndexSet is a set of integers", "statement": "After any sequence of add (single or range), remove and clear operations, membership queries answer exactly the mathematical set obtained by union and difference of the given ranges, and lowest, highest, size (saturating), emptiness and iteration agree with that set.", "quantifier": "all operation histories over 64-bit indices, including 0 and the maximum index", "why_tests_cant": "unbounded histories and boundary arithmetic at 2^64-1", "anchors": ["src/IndexSet.cpp", "include/rtmfp/IndexSet.hpp"]}
{"id": "C08", "title": "IndexSet keeps its ranges canonical", "statement": "After any history of operations the stored ranges are non-empty, strictly ascending, pairwise disjoint and never adjacent, so the number of ranges is the minimum possible for the set.", "quantifier": "all operation histories", "why_tests_cant": "adjacency merging must hold for every interleaving", "anchors": ["src/IndexSet.cpp: IndexSet::add, IndexSet::remove"]}
{"id": "C09", "title": "List is a sequence with stable names", "statement": "For any history of operations on the name-addressed list, the forward traversal is exactly the abstract sequence given by the operations, the backward traversal is its reverse, the name given to an element keeps denoting that element until it is removed, no two live elements share a name, names are positive, and access through a dead name is refused (throws) rather than answering another element.", "quantifier": "all operation histories", "why_tests_cant": "reuse of freed slots and growth depends on arbitrary histories", "anchors": ["include/rtmfp/List.hpp"]}
{"id": "C10", "title": "SumList running sum is exact", "statement": "For any history of adding values and removing names (without mutating a value's size while it is in the list) the running sum equals the sum of the sizes of the current elements modulo 2^64.", "quantifier": "all operation histories", "why_tests_cant": "unbounded histories", "anchors": ["include/rtmfp/List.hpp: SumList"]}
{"id": "C11", "title": "Write receipts settle exactly once", "statement": "For any history of a write receipt, its completion callback is invoked at most once; it reports abandonment if and only if the receipt was abandoned before all its fragments were acknowledged; once finished the receipt never becomes unfinished, and delivered and abandoned are mutually exclusive.", "quantifier": "all interleavings of use-count changes, deadline checks, parent chaining and explicit abandonment", "why_tests_cant": "depends on every interleaving of acks, timeouts and user calls", "anchors": ["src/WriteReceipt.cpp", "include/rtmfp/WriteReceipt.hpp"]}
{"id": "C12", "title": "Fragmentation preserves the message", "statement": "Writing a message of any size queues consecutive sequence numbers whose payloads concatenate to exactly the message, each payload no longer than the negotiated fragment limit, marked whole/begin/middle/end consistently, and non-empty except for an empty message which is one empty whole fragment.", "quantifier": "all messages and all startup-option sizes below the limit", "why_tests_cant": "all lengths around multiples of the fragment size", "anchors": ["src/SendFlow.cpp: SendFlow::basicWrite"]}
{"id": "C13", "title": "A fragment always fits an empty packet", "statement": "Every fragment produced by a write, with its chunk header, flow id, sequence numbers and startup options, fits in a session packet that contains nothing else, so transmission can never be stuck on an oversized fragment.", "quantifier": "all messages, flow ids, sequence numbers below 2^63 and front margins permitted by the encryption", "why_tests_cant": "worst-case header sizes are never reached by tests", "anchors": ["src/SendFlow.cpp: SendFlow::assembleData", "include/rtmfp/params.hpp"]}
{"id": "C14", "title": "Sequence-order delivery is exact", "statement": "If every fragment of a stream of messages arrives at least once at a receiver in original-order mode, in any order and with any duplication and interleaving, the receiver delivers exactly the sent messages, each once, in sending order; at every moment what has been delivered is a prefix of what was sent.", "quantifier": "all message lists, all arrival schedules with duplication and loss", "why_tests_cant": "all permutations and duplications", "anchors": ["src/RecvFlow.cpp: RecvFlow::onData, insertFragment, tryDelivery, deliverMessage"]}
{"id": "C15", "title": "Network-order delivery is exact", "statement": "In network-order mode, for fragments coming from a well-formed sender, every message all of whose fragments arrive is delivered exactly once with its exact contents as soon as its last fragment arrives, whatever the arrival order and duplication.", "quantifier": "all message lists and arrival schedules", "why_tests_cant": "all permutations", "anchors": ["src/RecvFlow.cpp"]}
{"id": "C16", "title": "Arbitrary fragments cannot break the receiver", "statement": "No sequence of data chunks, however malformed, makes the receive flow access a released buffer entry (which throws an uncaught exception).", "quantifier": "all sequences of (sequence number, forward sequence number, flags, payload)", "why_tests_cant": "hostile peers", "anchors": ["src/RecvFlow.cpp: RecvFlow::insertFragment, deliverMessage", "include/rtmfp/List.hpp: List::at"]}
{"id": "C17", "title": "Acknowledgement encoding is exact", "statement": "For any set of received sequence numbers, the range acknowledgement the receiver assembles (when not truncated) is decoded by the sender into exactly that set.", "quantifier": "all receive histories", "why_tests_cant": "all gap patterns, 64-bit boundary arithmetic", "anchors": ["src/RecvFlow.cpp: RecvFlow::assembleAck", "src/SendFlow.cpp: SendFlow::onAck"]}
{"id": "C18", "title": "Truncated acknowledgements acknowledge only received data", "statement": "When an acknowledgement does not fit in the packet and is truncated, what the sender decodes is a subset of what was received that still includes everything up to the cumulative sequence number.", "quantifier": "all receive histories and all remaining packet sizes", "why_tests_cant": "all truncation points", "anchors": ["src/RecvFlow.cpp: RecvFlow::assembleAck", "src/SendFlow.cpp: SendFlow::onAck"]}
{"id": "C19", "title": "Receiver progress is monotone", "statement": "The cumulative acknowledgement number never decreases, never exceeds a value justified by received fragments or forward sequence numbers, and no sequence number once received is ever un-received.", "quantifier": "all chunk histories", "why_tests_cant": "unbounded histories", "anchors": ["src/RecvFlow.cpp: RecvFlow::onData, getCumulativeAckSequenceNumber"]}
{"id": "C20", "title": "Forward sequence number never skips live data", "statement": "The forward sequence number advertised by a sender is below the sequence number of every queued fragment that has not been acknowledged or abandoned, so a receiver is never told to skip data that the sender still intends to deliver.", "quantifier": "all send-queue histories", "why_tests_cant": "depends on interleaving of acks and abandonment", "anchors": ["src/SendFlow.cpp: findForwardSequenceNumber, trimSendQueue, assembleData"]}
{"id": "C21", "title": "Outstanding-byte accounting", "statement": "After any history of transmissions, acknowledgements, losses, timeouts and closures, the outstanding byte count of a flow equals the total transmitted size of its in-flight fragments, and that of the session equals the sum over its flows.", "quantifier": "all histories", "why_tests_cant": "drift only shows after arbitrary interleavings", "anchors": ["src/SendFlow.cpp", "src/Session.cpp", "include/rtmfp/List.hpp: SumList"]}
{"id": "C22", "title": "Delivered receipts are truthful", "statement": "With an honest receiver, when a write is reported delivered every fragment of that message has been received by the peer.", "quantifier": "all network schedules with loss, duplication and reordering of data and acknowledgement packets", "why_tests_cant": "distributed interleavings", "anchors": ["src/SendFlow.cpp: onAck, ackRange", "src/RecvFlow.cpp: assembleAck", "src/WriteReceipt.cpp"]}
{"id": "C23", "title": "Congestion window bounds", "statement": "After any history of acknowledgements, losses, timeouts, ECN marks and time-critical notifications the congestion window never falls below two maximum segments (so the sender is never permanently blocked) and window arithmetic never underflows.", "quantifier": "all event histories", "why_tests_cant": "unbounded numeric histories", "anchors": ["src/Session.cpp: Session::updateCWND, onTimeoutAlarm"]}
{"id": "C24", "title": "Session lifecycle is monotone", "statement": "A session only moves forward through its lifecycle (opening, open, near-close or far-close linger, closed) for every sequence of API calls, timer firings and received chunks; in particular a closed session never becomes usable again and the close notification is delivered at most once.", "quantifier": "all event histories", "why_tests_cant": "all interleavings of local and remote close", "anchors": ["src/Session.cpp: close, abort, setOpen, setNearclose, setFarcloseLinger, onCloseChunk, onCloseAckChunk"]}
{"id": "C25", "title": "Flow lifecycle notifications", "statement": "A receive flow's completion callback is invoked at most once and never followed by a message; a send flow's exception callback is invoked at most once; writes to a flow that has been closed are refused.", "quantifier": "all histories of API calls and received chunks", "why_tests_cant": "all interleavings", "anchors": ["src/RecvFlow.cpp", "src/SendFlow.cpp"]}
{"id": "C26", "title": "Loss is only declared after three later acknowledgements", "statement": "A fragment is declared lost without a timeout only if at least three packets transmitted after it have been acknowledged; a lost fragment becomes eligible for retransmission exactly when it is reliable and not abandoned.", "quantifier": "all acknowledgement histories", "why_tests_cant": "unbounded histories", "anchors": ["src/Session.cpp: onPacketAfterChunks", "src/SendFlow.cpp: onLoss, assembleData"]}
{"id": "C27", "title": "Packet timestamps and RTT sampling", "statement": "The 4 ms wrapping timestamp and echo produce the true round-trip time (to clock resolution) for any RTT below the wrap period, and an echo never yields a negative or absurdly large sample.", "quantifier": "all clock values and RTTs", "why_tests_cant": "wrap-around at 2^16 ticks", "anchors": ["src/Session.cpp: onPacketHeader, getTimestampEcho", "src/RTMFP.cpp: getCurrentTimestamp"]}
{"id": "C28", "title": "ECN congestion-experienced counting", "statement": "The 8-bit wrapping count of congestion-experienced marks is interpreted as a new congestion signal exactly when the count has advanced modulo 256, tolerating reordered reports.", "quantifier": "all counter values and report orders", "why_tests_cant": "modular arithmetic", "anchors": ["src/Session.cpp: onECNReport, updateCWND"]}
{"id": "C29", "title": "Startup cookies bind address and time", "statement": "A cookie issued for an address is accepted from that address for the cookie lifetime of the same instance; a cookie presented from another address, altered, or older than the lifetime is not accepted unless the hash function collides; no server state is needed.", "quantifier": "all addresses, issue and check times, and byte strings presented as cookies", "why_tests_cant": "adversarial inputs", "anchors": ["src/RTMFP.cpp: makeCookie, checkCookie"]}
{"id": "C30", "title": "Time-critical reporting to other peers", "statement": "A session tells its peer about time-critical reception exactly when some other session has received time-critical data within the timeout.", "quantifier": "all histories of time-critical receptions over any number of sessions with a non-decreasing clock", "why_tests_cant": "unbounded number of sessions and events; only two timestamps are stored", "anchors": ["src/RTMFP.cpp: onSessionReceivedTC, shouldSessionReportTCR"]}
{"id": "C31", "title": "Timers fire in order, once, and never after cancellation", "statement": "Firing due timers runs every timer due at or before the given time in non-decreasing due-time order; a one-shot timer fires exactly once unless rescheduled; a cancelled timer never fires again, even when cancelled by another timer's action in the same pass; recurring timers are rescheduled strictly later; afterwards no due timer remains.", "quantifier": "all timer lists and all actions that schedule, reschedule or cancel timers", "why_tests_cant": "reentrant schedules", "anchors": ["src/Timer.cpp"]}
{"id": "C32", "title": "Reorder buffer delivers in order, once", "statement": "Each message inserted into the reorder buffer is delivered exactly once, after the window period at the latest or on flush; messages not flagged late are delivered in increasing sequence order; a message is flagged late exactly when later data has already been delivered.", "quantifier": "all insertion orders, times and flush points", "why_tests_cant": "all schedules", "anchors": ["src/ReorderBuffer.cpp"]}
{"id": "C33", "title": "AMF0 values round trip", "statement": "Decoding the encoding of any AMF0 value tree (nesting within the documented depth, strings below 4 GiB, keys below 64 KiB) gives back an equal value and consumes exactly the encoded bytes; a sequence of values decodes to the same sequence.", "quantifier": "all value trees", "why_tests_cant": "unbounded recursive structures", "anchors": ["src/AMF.cpp"]}
{"id": "C34", "title": "AMF0 decoding of arbitrary bytes is safe", "statement": "Decoding arbitrary bytes terminates, never reads outside the buffer, recurses no deeper than the documented maximum, leaves the cursor unchanged on failure and strictly advances it on success.", "quantifier": "all byte strings", "why_tests_cant": "hostile input", "anchors": ["src/AMF.cpp: AMF0::decode, setFromEncoding"]}
{"id": "C35", "title": "Address encoding and ordering", "statement": "Encoding an address and decoding it recovers family, IP, port and origin; IPv4 addresses mapped to IPv6 and back are unchanged; the comparison is a strict total order consistent with equality.", "quantifier": "all addresses", "why_tests_cant": "2^144 addresses; order laws range over triples", "anchors": ["src/Address.cpp"]}
{"id": "C36", "title": "Hex coding", "statement": "Decoding the hex encoding of any byte string returns it; decoding accepts exactly the strings made of two-digit groups optionally separated by white space, and a rejected input leaves the destination unchanged.", "quantifier": "all strings", "why_tests_cant": "all strings", "anchors": ["src/Hex.cpp"]}
{"id": "C37", "title": "URI path normalization removes all dot segments", "statement": "Removing dot segments from any path terminates and yields a path none of whose segments is '.' or '..', and is idempotent on its own output.", "quantifier": "all strings", "why_tests_cant": "path traversal safety must hold for every string", "anchors": ["src/URIParse.cpp: removeDotSegments"]}
{"id": "C38", "title": "String splitting and percent decoding", "statement": "Splitting on a separator and joining gives back the original string, no part (except the last when limited) contains a separator, and at most the requested number of parts is returned; percent-decoding never reads past the string and inverts percent-encoding.", "quantifier": "all strings", "why_tests_cant": "all strings", "anchors": ["src/URIParse.cpp: split, percentDecode"]}
{"id": "C39", "title": "TC message and metadata codecs", "statement": "Message headers (type, 32-bit timestamp) and flow metadata (stream id, receive order) are recovered exactly from their encodings; parsing arbitrary bytes never reads past the end and rejects stream ids above 2^32-1.", "quantifier": "all values and byte strings", "why_tests_cant": "all values", "anchors": ["src/TCMessage.cpp: TCMessage::parseHeader, message, TCMetadata::parse, encode"]}
{"id": "C40", "title": "Wrapping timestamp comparison", "statement": "For 32-bit timestamps less than 2^31 apart exactly one of before, equal, after holds and the signed difference is the true difference; the difference always equals l-r modulo 2^32.", "quantifier": "all pairs of timestamps", "why_tests_cant": "2^64 pairs", "anchors": ["src/TCMessage.cpp: timestamp_lt, timestamp_gt, timestamp_diff"]}
{"id": "C41", "title": "Media message headers", "statement": "Parsing the header of any media message built from any flags, type, decode and presentation times, option list and payload recovers all of them and the payload offset; parsing arbitrary bytes stays in bounds.", "quantifier": "all 64-bit times, well-formed option lists, payloads", "why_tests_cant": "unbounded", "anchors": ["src/Media.cpp: basicMakeMessage, basicParseHeader"]}
{"id": "C42", "title": "Checksums", "statement": "The CRC of a concatenation can be computed incrementally; both CRCs detect every single error burst of up to 32 bits in messages of any length; the 16-bit checksum never depends on more than the bytes given and verifies the packets it was computed for.", "quantifier": "all messages and error bursts", "why_tests_cant": "unbounded messages", "anchors": ["src/Checksums.cpp"]}
{"id": "C43", "title": "Flow synchronization", "statement": "A synchronization message is parsed back to its id and count; flows held on a barrier are released exactly when the barrier's count is reached or it is reset, and flows not in original-order mode are never held.", "quantifier": "all ids and counts, all arrival orders", "why_tests_cant": "unbounded", "anchors": ["src/FlowSyncManager.cpp"]}
{"id": "C44", "title": "No replayed packet is accepted", "statement": "When session sequence numbers are required, no sequence number is ever accepted twice in the life of a session, whatever packets arrive.", "quantifier": "all packet histories", "why_tests_cant": "adversarial histories", "anchors": ["src/FlashCryptoAdapter.cpp: FlashCryptoKey::decrypt", "src/IndexSet.cpp"]}
{"id": "C45", "title": "Packet encryption round trip", "statement": "For any plaintext, decrypting what the peer's key encrypts succeeds and exposes the original bytes after the announced front margin (followed only by padding), in all four HMAC / sequence-number modes, given a correct block cipher and MAC.", "quantifier": "all packets, all modes, all sequence numbers", "why_tests_cant": "all sizes and modes", "anchors": ["src/FlashCryptoAdapter.cpp: encrypt, decrypt, getEncryptSrcFrontMargin"]}
{"id": "C46", "title": "Security option negotiation agrees", "statement": "After a successful keying exchange between any two configurations, each side requires on reception exactly what the other side always sends (HMAC and sequence numbers), HMAC lengths match, and no side's requirement is silently dropped.", "quantifier": "all configurations of both sides", "why_tests_cant": "cross product of configurations and option encodings", "anchors": ["src/FlashCryptoAdapter.cpp: negotiateFlags, generateInitiatorKeyingComponent, generateResponderKeyingComponent, initiatorCombineResponderKeyingComponent"]}
{"id": "C47", "title": "Derived keys agree", "statement": "If both sides compute the same Diffie-Hellman secret, the initiator's send keys equal the responder's receive keys and vice versa, and each side's near nonce is the other's far nonce.", "quantifier": "all secrets and keying components, any MAC function", "why_tests_cant": "all values", "anchors": ["src/FlashCryptoAdapter.cpp: computeKeysAndNonces"]}
{"id": "C48", "title": "Endpoint selection", "statement": "An endpoint discriminator naming a fingerprint selects exactly the certificate with that fingerprint; one naming a hostname never selects an endpoint with another hostname; ancillary data is only accepted by servers; the selected certificate and the near adapter agree.", "quantifier": "all discriminators and certificates", "why_tests_cant": "all option combinations", "anchors": ["src/FlashCryptoAdapter.cpp: isSelectedByEPD, EPDParseState::parse, FlashCryptoCert::isSelectedByEPD"]}
{"id": "C49", "title": "Glare resolution is antisymmetric", "statement": "When two endpoints with different certificates open sessions to each other at the same time exactly one of the two sides wins.", "quantifier": "all pairs of certificates", "why_tests_cant": "all pairs", "anchors": ["src/FlashCryptoAdapter.cpp: checkNearWinsGlare", "src/PlainCryptoAdapter.cpp"]}
{"id": "C50", "title": "Session id scrambling", "statement": "Any packet (of at least 8 encrypted bytes, and shorter ones too) sent to a session id is demultiplexed to exactly that session id by the receiver.", "quantifier": "all session ids and packet contents", "why_tests_cant": "all values", "anchors": ["src/Session.cpp: encryptAndSendPacket", "src/RTMFP.cpp: onReceivePacket"]}
{"id": "C51", "title": "Reference counting", "statement": "For any history of creating, copying, moving, assigning and dropping retainers, an object is destroyed exactly once, precisely when its last retainer goes away, and never used afterwards.", "quantifier": "all histories", "why_tests_cant": "all histories", "anchors": ["include/rtmfp/Retainer.hpp", "src/Object.cpp"]}
{"id": "C52", "title": "Deferred tasks run once in order", "statement": "Tasks queued for later execution run exactly once in queue order, including tasks queued by tasks; no task runs after the platform adapter has been closed.", "quantifier": "all histories", "why_tests_cant": "reentrancy", "anchors": ["src/RunLoop.cpp: doLater, processDoLaters", "src/Performer.cpp", "src/PosixPlatformAdapter.cpp: perform"]}
{"id": "C53", "title": "Transactions get their own response once", "statement": "Each transaction handler is invoked exactly once: with the first response carrying its transaction id or with failure when the connection closes; responses with unknown ids invoke nothing; transaction ids are never reused.", "quantifier": "all histories of requests, responses and closes", "why_tests_cant": "all interleavings", "anchors": ["src/TCConnection.cpp: basicTransact, onTransactionResponse, basicClose"]}
{"id": "C54", "title": "Set-keepalive command", "statement": "A set-keepalive user control message sets the server session keepalive period to its first field and the peer default to its second field, each raised to at least 5 seconds.", "quantifier": "all pairs of periods", "why_tests_cant": "all pairs", "anchors": ["src/TCConnection.cpp: onSetKeepaliveUserCommand"]}
{"id": "C55", "title": "Redirector client reconnection", "statement": "A redirector client never starts two connection attempts less than the minimum reconnect interval apart, never reconnects after being closed, and the redirector has been sent the latest load factor whenever no update is pending.", "quantifier": "all event histories", "why_tests_cant": "all interleavings", "anchors": ["src/RedirectorClient.cpp"]}
{"id": "C56", "title": "Interface write scheduling", "statement": "Each time an interface becomes writable the highest-priority session with something to send is served, sessions of equal priority are served round robin, a session is queued at most once per priority, and no scheduled session is lost.", "quantifier": "all histories", "why_tests_cant": "unbounded schedules", "anchors": ["src/Interface.cpp"]}
{"id": "C57", "title": "Session opening state is bounded", "statement": "A responder keeps no per-initiator state before a valid cookie, at most the configured number of keying requests wait at a time, at most 18 early packets are buffered per opening session, and a session follows at most one cookie change.", "quantifier": "all packet histories", "why_tests_cant": "denial-of-service histories", "anchors": ["src/RTMFP.cpp: onIIKeying", "src/Session.cpp: onCookieChange, onReceivePacket"]}
{"id": "C58", "title": "User data chunk headers round trip", "statement": "The flow id, sequence number, forward sequence number, options, flags and payload of every data chunk placed in a packet by a sender, including compressed next-fragment chunks, are recovered exactly by the receiving session.", "quantifier": "all chunk sequences in a packet", "why_tests_cant": "all combinations", "anchors": ["src/SendFlow.cpp: assembleData", "src/Session.cpp: onUserDataChunk"]}
{"id": "C59", "title": "Rate tracker", "statement": "For any history of updates with any clock, the reported rate is never negative, is zero when nothing was counted for two windows, and never exceeds the counted total divided by the window.", "quantifier": "all histories", "why_tests_cant": "unbounded histories", "anchors": ["src/RateTracker.cpp"]}
{"id": "C60", "title": "Retransmission timeout", "statement": "After any sequence of round-trip samples and retransmission timeouts, the smoothed round-trip time lies within the range of the samples, the effective timeout is never below 0.25 s, never below the measured timeout, and never above the larger of 10 s and the measured timeout; repeated timeouts bring it to that limit, and the next sample takes it back to the measured timeout.", "quantifier": "all sequences of samples and timeouts", "why_tests_cant": "unbounded histories; numeric ranges", "anchors": ["src/Session.cpp: onPacketHeader, onTimeoutAlarm", "include/rtmfp/rtmfp.hpp: getSRTT, getERTO"]}
{"id": "C61", "title": "Base round-trip time", "statement": "The reported base round-trip time is the least of recent samples: it is one of the samples taken on the current path no more than 210 s before the last sample, and no sample taken on the current path in the last 150 s is less.", "quantifier": "all histories of samples (at any times) and path changes", "why_tests_cant": "unbounded histories; long times", "anchors": ["src/Session.cpp: checkBaseRTT, resetBaseRTT", "include/rtmfp/rtmfp.hpp: getBaseRTT"]}
{"id": "C62", "title": "A flow from end to end", "statement": "Over a network that loses, repeats and reorders, the receiving user of a flow is given only messages that were written to it, each at most once and with its exact contents; in sequence order they come in the order written; as long as no message is abandoned what was given is a prefix of what was written; once all are reported delivered all were given; and when the receiving flow reports completion every message not abandoned was given.", "quantifier": "all executions of both sides and all behaviours of the network", "why_tests_cant": "two communicating state machines and an adversarial network", "anchors": ["src/SendFlow.cpp", "src/RecvFlow.cpp", "src/Session.cpp: onUserDataChunk, onAckChunk"]}
{"id": "C63", "title": "Older fragments are sent first", "statement": "Within a flow, data is sent oldest first, retransmissions included: after any packet of a flow was filled, every fragment of that flow still waiting to be sent is newer than all fragments in the packet, and the fragments in the packet are in increasing order.", "quantifier": "all histories of writes, transmissions, acknowledgements, losses and timeouts, and all packet sizes", "why_tests_cant": "where transmission resumes is cached between packets; a stale cache only shows after particular interleavings of losses and acknowledgements", "anchors": ["src/SendFlow.cpp: SendFlow::assembleData, onLoss"]}
{"id": "C64", "title": "A repeated keying answer keeps the keys", "statement": "Receiving the responder's keying answer again before the session opens leaves the initiator with keys derived from the shared secret, the same as the responder's.", "quantifier": "all configurations of both sides, all secrets", "why_tests_cant": "needs a repeated packet while work on another thread is pending", "anchors": ["src/FlashCryptoAdapter.cpp: initiatorCombineResponderKeyingComponent, eraseSharedSecret", "src/Session.cpp: onRIKeying"]}
{"id": "C65", "title": "A rejected keying answer has no effect", "statement": "A keying answer that is rejected changes nothing: neither the keys and requirements in force nor the outcome of a later, genuine answer.", "quantifier": "all answers", "why_tests_cant": "adversarial packets before or after the genuine answer", "anchors": ["src/FlashCryptoAdapter.cpp: initiatorCombineResponderKeyingComponent, negotiateFlags"]}
{"id": "C66", "title": "Media track descriptions survive their metadata", "statement": "Parsing the metadata written for any media track gives back its stream and track ids, codec, type, name, timescale and receive intent exactly, its time origin to within 2^-64 seconds and its reorder suggestion to within half a tick; the library considers the result equal. Parsing arbitrary metadata stays in bounds, accepts only metadata with the right signature, and what it accepts is written and parsed back unchanged.", "quantifier": "all track descriptions, all byte strings", "why_tests_cant": "unbounded", "anchors": ["src/Media.cpp: toMetadata, setFromMetadata, fromMetadata, parametersEqual"]}
{"id": "C67", "title": "Media tracks are consistently ordered", "statement": "The orders of tracks offered for sets and map keys are strict weak orders, and two tracks are equivalent exactly if they have the same identity.", "quantifier": "all pairs and triples of tracks", "why_tests_cant": "a law over all values", "anchors": ["src/Media.cpp: track_compare, stream_track_compare, track_less, stream_track_less"]}
{"id": "C68", "title": "Streams of a connection have distinct ids and close with it", "statement": "When the server answers createStream with a whole number from 1 to 2^32-1, the stream is opened with that id exactly once, unless it was deleted meanwhile (then nothing happens) or an open stream already has that id (then the connection ends). Open streams of a connection always have different ids, messages for an id go to the open stream that has it and to nothing otherwise, a deleted stream is never opened, and once the connection is closed no stream is open and no assertion of the library fails.", "quantifier": "all histories of connects, transactions, stream creations and deletions, responses with arbitrary values, and closes", "why_tests_cant": "interleavings of deletion, responses and closing are unbounded, and responses are arbitrary", "anchors": ["src/TCConnection.cpp: createStream, deleteStream, basicClose, onTransactionResponse", "src/TCConnection.cpp: TCStream::setStreamID, TCStream::deleteStream"]}
{"id": "C69", "title": "Actions of descriptors", "statement": "A run loop calls an action only while it is the one registered for that descriptor and condition (never after it was unregistered, replaced or cleared), only after the descriptor was found ready in the current turn, at most once per turn, exceptions first and then by condition and descriptor; once stopped it calls no more actions, tasks or timers until it is run again.", "quantifier": "all histories of registering, unregistering, clearing, stopping and running, including from within actions, tasks and timers, and all outcomes of select", "why_tests_cant": "actions that unregister or replace one another while several are ready; unboundedly many interleavings", "anchors": ["src/SelectRunLoop.cpp: registerDescriptor, unregisterDescriptor, run, clear", "src/RunLoop.cpp: stop, processDoLaters"]}
{"id": "C70", "title": "Tasks handed to another thread", "statement": "A task handed to a performer is started by the loop's thread exactly once, in the order handed over, and never stays behind: whenever no thread is inside a call and the loop is idle, a waiting task wakes the loop, which starts it. A call that waits returns only after its task has finished, and it always returns. A waiting call made in the loop's own thread first runs everything handed over before. After closing no task is started.", "quantifier": "all interleavings of any number of threads' accesses to the shared flag, queue and pipe", "why_tests_cant": "data races between a flag, a queue and a pipe show only in rare schedules", "anchors": ["src/Performer.cpp: perform, onSignaled, fireItems, close"]}
{"id": "C71", "title": "Flows talk to the peer they were opened to", "statement": "A flow opened to an endpoint is only ever bound to a session whose peer's certificate answers to that endpoint's name.", "quantifier": "all histories of opening flows, hellos, keying, redirects and sessions merging", "why_tests_cant": "it takes several sessions opening at once, answered in a particular order", "anchors": ["src/SendFlow.cpp: onSessionDidOpen, onSessionWillOpen", "src/RTMFP.cpp: openFlow, findOpeningSessionByEPD, onSessionWillOpen", "src/Session.cpp: onRHello"]}
{"id": "C72", "title": "Every flow learns what became of its session", "statement": "An open flow with an exception callback that its owner does not close either stays open, bound to an open session or waiting for one that will open or fail within its limit, or is told by its callback; no flow stays bound to a session that is gone.", "quantifier": "all histories, including what callbacks do in the middle of the library's loops", "why_tests_cant": "callbacks that open and close flows and sessions at every point of the loops that are ending sessions", "anchors": ["src/Session.cpp: abort, setNearclose, setFarcloseLinger, closeAllFlows", "src/SendFlow.cpp: onSessionDidClose, onExceptionReport, close", "src/RTMFP.cpp: openFlow, onSessionDidClose"]}
{"id": "C73", "title": "Shutting down completes, once, and for good", "statement": "After shutdown is asked for no session is made; its completion is reported at most once, only when no session and no unsent packet is left, and it always is: until then a task, a timer of a closing session or a packet waiting for its interface is pending. No session exists afterwards.", "quantifier": "all histories, including shutting down from callbacks", "why_tests_cant": "shutdown at every point of every other activity", "anchors": ["src/RTMFP.cpp: shutdown, checkShutdownComplete, onIIKeying", "src/Session.cpp: close, abort, StartupSession::onInterfaceWritable"]}
{"id": "C74", "title": "An open session ends only for cause", "statement": "A session that has opened stays open until the application closes it, the instance is shut down, it is idle, the far end stops answering or closes it, its own keying fails belatedly, or somebody at the same address opens a session with a certificate that overrides the session's own. Flows that open, fail or close, other sessions, timers and strangers' packets do not end it.", "quantifier": "all histories of application calls (callbacks included), packets, timers and crypto results", "why_tests_cant": "Sessions are aborted from many places (interest counting, glare, overrides, timers); that none of them hits the wrong session depends on all interleavings.", "anchors": ["src/Session.cpp: Session::close, Session::abort, Session::interestDown", "src/RTMFP.cpp: RTMFP::onIIKeying, RTMFP::shutdown", "src/SendFlow.cpp: SendFlow::gotoStateClosed"]}
{"id": "C75", "title": "The redirector knows how the server is registered", "statement": "While a redirector client is connected and not inside the callback that says so, the last registration message on the connection says draining if the client is inactive; if it is active and not paused, it lists exactly the additional addresses set and whether to advertise the reflexive address.", "quantifier": "all histories of calls (callbacks included), connections, failures and timers", "why_tests_cant": "Every setter sends conditionally on three flags and the connection; a missed combination leaves the redirector with a stale registration and no error.", "anchors": ["src/RedirectorClient.cpp: setActive, setPaused, setAdvertiseReflexiveAddress, addAdditionalAddress, sendSettingsIfActive, sendDrainingIfInactive, onConnected"]}
{"id": "C76", "title": "A redirector connection begins with authentication", "statement": "The first messages written on every connection to a redirector are the authentications of all keys, then the registration, then the load factor; nothing is written before the connection is open.", "quantifier": "all histories, whatever the status callback does", "why_tests_cant": "what callbacks may call in the middle of opening", "anchors": ["src/RedirectorClient.cpp: onConnected, sendSimpleAuth, sendUserData, setLoadFactor"]}
{"id": "C77", "title": "Statuses of a redirector client are reported in order", "statement": "The statuses reported are a path of the connection's life: connecting before connected, connected only once per connection, a failure after each, and connecting again only after a failure; what is answered when asked is the last one reported, until the client is closed.", "quantifier": "all histories, including failures inside callbacks", "why_tests_cant": "failures and closing at every point, including inside of the callbacks", "anchors": ["src/RedirectorClient.cpp: setStatus, doConnect, onConnected, onException, close"]}
{"id": "C78", "title": "Data that waits is never forgotten", "statement": "As long as a session is open, a flow with data that was not sent yet, or was lost, gets to send: the flow waits for its turn and the session is in line at a network interface, or a timer is set that puts it in line (pacing, retransmission), or acknowledgements of data outstanding are awaited with the retransmission timer set, or the receiver said it has no room and the flow's probe timer is set. Every one of these wakeups has its effect: an interface sends a packet of the flow or brings its turn nearer, the timers put the session in line or end it, a place at an interface no longer used moves to the one in use, a probe is sent and the next one scheduled.", "quantifier": "all histories of writes, packets (reordered, lost, repeated), acknowledgements, timers, address changes and priorities", "why_tests_cant": "A lost wakeup shows only if congestion window, burst limit, receive window, loss and timers interleave in one particular way, and then as a hang.", "anchors": ["src/Session.cpp: scheduleFlowForTransmission, rescheduleTransmission, onInterfaceWritable, scheduleBurstAlarm, rescheduleTimeoutAlarm, onTimeoutAlarm, onPacketAfterChunks, onMobilityCheckReply", "src/SendFlow.cpp: scheduleForTransmission, isMaybeReady, onAck, onLoss, setPersistTimer, onPersistTimer"]}
{"id": "C79", "title": "Flows of equal priority take turns", "statement": "While a flow can send and its priority is that of another, at most one packet more of the other flow is sent than of this one; while both can send, the numbers of their packets never differ by more than one.", "quantifier": "all histories, whatever else the session does meanwhile (losses, acknowledgements, other flows, timers)", "why_tests_cant": "fairness over all interleavings of sending, scheduling and rescheduling after loss", "anchors": ["src/Session.cpp: onInterfaceWritable, scheduleFlowForTransmission", "src/SendFlow.cpp: assembleData, scheduleForTransmission"]}
{"id": "C80", "title": "A peer that is gone is noticed, and one that answers is kept", "statement": "A session ends because the other end is silent only if something sent (data or a keepalive) is unanswered and nothing was answered for the retransmission limit. If something is unanswered and nothing arrives, it does end, within a bounded time of the limit. An open session always has a timer set that leads there, sending keepalives when it has nothing else to send.", "quantifier": "all histories of sending, acknowledgements, keepalives, settings and timers", "why_tests_cant": "It needs every interleaving of timers with traffic over long times; a missed re-arming shows only as a session that never ends.", "anchors": ["src/Session.cpp: rescheduleTimeoutAlarm, onTimeoutAlarm, onKeepaliveAlarm, sendKeepalivePing, setKeepaliveAlarm, setSessionRetransmitLimit, onAckChunk, onPingReplyChunk"]}
{"id": "C81", "title": "Received data is acknowledged in time", "statement": "When data arrived on a flow, as long as it was not acknowledged the session is in line at an interface to do so, or a timer for it is set, to at most 200 milliseconds after the data arrived; it is in line at once when the receive flow asks for it or a second packet with data arrived. Whenever its interface then asks, a packet of acknowledgements is sent, flows taking turns.", "quantifier": "all histories of packets, flows, acknowledgements, timers and address changes", "why_tests_cant": "A forgotten acknowledgement depends on how arrivals, the delay timer and sending interleave, and shows only as a spurious retransmission by the other end.", "anchors": ["src/Session.cpp: scheduleAck, ackNow, sendAcks, onPacketAfterChunks, onUserDataChunk, onInterfaceWritable, onMobilityCheckReply", "src/RecvFlow.cpp: scheduleAck, assembleAck"]}
{"id": "C82", "title": "An idle session ends, and a used one does not", "statement": "A session ends as idle only if for the whole idle limit it had no flow in either direction; if it has none all that time and the timer is not late, it is over by then. An open session always has its idle timer set.", "quantifier": "all histories of flows opening and closing in both directions, setting the limit, and timers", "why_tests_cant": "flows come and go at any time relative to a timer that is re-armed lazily", "anchors": ["src/Session.cpp: onIdleAlarm, setSessionIdleLimit, bindFlow, unbindFlow"]}
{"id": "C83", "title": "A session follows its peer only where it answered", "statement": "The packets of a session go to the address it was opened to until the session moves, and then to where it moved last. A session moves to an address only when a check comes back from that address, by that interface, which the instance had sent there at most 120 seconds before; each check that moves a session is newer than those before, so answers seen again have no effect, and checks can't be made without the instance's secret. When a packet of an open session comes from elsewhere, a check is sent there, at most one each second, and if it comes back in time the session moves.", "quantifier": "all histories of any number of sessions of an instance: openings, closings, packets from any addresses with any contents, answers delayed, repeated, altered or sent from elsewhere, the passing of time; all hash functions without collisions among checks, when nobody makes up a valid check", "why_tests_cant": "An attacker chooses where packets come from, in what order, and what they contain; tests try a few. That no order of old answers moves a session somewhere wrong is a statement about all histories.", "anchors": ["src/Session.cpp: makeMobilityCheck, sendMobilityCheck, onMobilityCheckReply, onPingReplyChunk, onPacketAfterChunks", "include/rtmfp/params.hpp: MAX_MOBILITY_LIFETIME"]}
{"id": "C84", "title": "A flow that can be written to says so, and only then", "statement": "If the user asked to be told when a sending flow can be written to (or answered the last time that they want to hear again), and it is bound to an open session, not closed, and its buffer is below its capacity, then the callback is being called or a task that will call it is at the platform, at most one, which stays there until it runs. The callback is called only in those conditions, again as long as it answers true and there is room, and never after close().", "quantifier": "all histories of opening, binding, writing, acknowledgements, trimming, changing the capacity, asking, and the answers of the callback", "why_tests_cant": "A lost wake-up is an interleaving of filling, acknowledging and asking that tests don't happen to try; it shows as an application that stops writing for ever.", "anchors": ["src/SendFlow.cpp: isWritable, notifyWhenWritable, setBufferCapacity, queueWritableNotify, doWritable, onSessionDidOpen, trimSendQueue, onAck, close"]}
{"id": "C85", "title": "A sending flow tells truly how long its messages wait", "statement": "A receipt tells when its message was written, and that it was started exactly when something of it was sent in a packet. The buffered age of a flow is the time since its oldest message still in the buffer was written; the unstarted age is the time since the oldest of those was written of which nothing was sent yet; each is zero for an open flow with no such message.", "quantifier": "all histories of any number of flows of a session: opening, writing, sending, acknowledgements, loss, trimming, abandoning, closing", "why_tests_cant": "The unstarted age is found by a search that skips what is known to be sent; that nothing unsent is ever skipped is an invariant of all histories of acknowledgement and retransmission. Applications use the ages to decide what to drop.", "anchors": ["src/SendFlow.cpp: getBufferedAge, getUnstartedAge, basicWrite, assembleData, trimSendQueue", "src/WriteReceipt.cpp: createdAt, isStarted"]}
{"id": "C86", "title": "The JSON of a value is JSON and means the value", "statement": "toJSON() of any AMF0 value is a text that a JSON reader accepts, and what it reads is the value: objects with their members in order, without those that are undefined or missing; arrays with null for undefined or missing elements; strings and keys byte for byte; whole numbers below 2^64 exactly and other numbers to 15 digits, NaN as null and infinity as a number too large. It is UTF-8 if the strings are, and one line without control characters when no indentation is asked for. repr() prints the same for values JSON can express.", "quantifier": "all value trees, any nesting, strings and keys of any bytes, numbers of any 64 bits, all indentations", "why_tests_cant": "Escapes, commas after left out members, rounding of digits and exponents have to be right for every combination; tests print a few values.", "anchors": ["src/AMF.cpp: toJSON, repr, reprMembers, jsonString, dtoa, toBase10, fractionToBase10NoTrailingZeros"]}
{"id": "C87", "title": "The epoll run loop calls the actions of ready descriptors, and only those in force", "statement": "With the run loop over epoll, whatever actions, tasks and timers register, unregister, replace or clear while the loop runs: an action is called only if it is registered at that moment, the loop is not stopped, and the kernel has just found its condition on its descriptor; within a turn once at most, exceptions first, then reading, then writing. A descriptor that the kernel finds ready for a registered condition gets its action called in the same turn. The kernel is always asked for exactly what is registered, and the loop never uses memory given back, as long as descriptors are unregistered before they are closed.", "quantifier": "all histories of opening, duplicating and closing descriptors, registering, unregistering, clearing, stopping, by whatever code at whatever time, and all answers of the kernel", "why_tests_cant": "Which callbacks undo the registrations of which others in the same turn, and numbers given out again after closing, are interleavings tests do not enumerate; a stray pointer shows as a rare crash.", "anchors": ["src/EPollRunLoop.cpp: registerDescriptor, unregisterDescriptor, run, processActivatedItems, clear, getPollEvents"]}
{"id": "C88", "title": "Startup messages say what was said, and introductions lead back to whom they are for", "statement": "Hellos, answers, redirects, cookie changes, keyings and forwarded hellos arrive at the other side as they were sent (the signature of a keying is of the very bytes the other side takes to be signed), unless there is no room for them; whatever bytes a chunk has, what is made of it is what it says by RFC 7016, and nothing if it says nothing. A packet leads to one hello at most, and what is sent because of a startup message goes where it came from, or for a forwarded hello to the address named in it. If an instance is asked for someone else, its user is told whom, by whom and with what tag; forwarding the hello on a flow answers true exactly if the session is open and the message short enough; then the one looked for answers to the address of the one who asked, by every interface, and the session that asked is given the cookie and the certificate (or the address to ask). The cookie is good for a keying from that address for 95 seconds, and from another address after one change.", "quantifier": "all endpoint discriminators, tags, cookies, certificates, addresses, session ids, crypto adapters, paddings, time stamps; all chunk payloads of any bytes; all packets", "why_tests_cant": "Each message is put together in one function and taken apart in another, on another host, with lengths that change the size of the lengths before them; tests use a few sizes. Introductions need three hosts.", "anchors": ["src/RTMFP.cpp: sendIHello, sendResponderRedirect, sendCookieChange, makeRIKeyingChunk, onIHello, onRHello, onRedirect, onIIKeying", "src/Session.cpp: StartupSession, makeIIKeyingChunk, onRIKeyingChunk, onCookieChangeChunk, onFIHelloChunk", "src/Flow.cpp: forwardIHello"]}
{"id": "C89", "title": "An address is read back from its text, and nothing else is", "statement": "The text of an address with its port, read into any address object, makes it that address, and so does the text without port, which leaves the port; the text always fits the documented length. Two addresses have the same text exactly if they are equal. A text that is not an IP address followed by a colon and a port from 0 to 65535 (IPv6 in brackets) is refused, and the address object is as before.", "quantifier": "all addresses that the functions of Address can make, all address objects read into, all texts; all C libraries whose own functions for IP addresses are inverse to each other", "why_tests_cant": "Lengths, characters and the number of colons that decide on the family are to fit together for every address; tests try a few. What is refused is everything else.", "anchors": ["src/Address.cpp: toPresentation, setFromPresentation, _count_colons", "include/rtmfp/Address.hpp: MAX_PRESENTATION_LENGTH"]}
{"id": "C90", "title": "The socket adapter reads, writes and tells for the interface it says, and is silent when closed", "statement": "What RTMFP is given for an interface was received by the socket of that interface, and everything received there is given to it. A packet to be written by an interface is sent once and unchanged from its socket, with the traffic class asked for (without only if the kernel refuses it), and the answer says whether; nothing is sent for an unknown interface or an address of the other family. The callback that was asked for last is called when the interface can be written to, at most as often at a time as is configured, until it answers no. After close() (or destruction) nothing is read, sent, called or run any more, all sockets of the adapter are closed, and no other descriptor is.", "quantifier": "all histories of adding interfaces, asking, writing, receiving, closing, from anywhere the application's code runs; all answers of the kernel, with descriptor numbers given out again after closing", "why_tests_cant": "What callbacks do to the adapter that is calling them, and descriptor numbers that come back, are interleavings that tests don't try; it shows as data of other connections, or as a stop without reason.", "anchors": ["src/PosixPlatformAdapter.cpp: addUdpInterface, close, notifyWhenInterfaceWritable, writePacket, perform, onInterfaceReadable, receiveOnePacket, ~PosixPlatformAdapter", "src/PerformerPosixPlatformAdapter.cpp: perform, close"]}
{"id": "C91", "title": "What arrives at a WebSocket is what the peer's frames say, however the stream cuts them", "statement": "The messages, pings and closes that a WebSocket server connection delivers are what the frames say that its peer sent after the header of the request: each message once, whole, in order and unmasked, fragments put together, control frames between fragments in their place; the cuts of the byte stream make no difference, and neither does what the application does in the callbacks other than closing. Frames that break the rules of fragmentation or are longer than 16 MB end the connection with onError, and nothing of them is delivered. After a Close nothing is delivered any more, and the connection is ended.", "quantifier": "all sequences of frames with any payloads, masks, lengths and length forms, all cuts of the stream, all applications with whatever they do in callbacks, all histories", "why_tests_cant": "A decoder of a cut stream has as many paths as there are cuts; tests feed whole frames. What the application does in callbacks changes the state in the middle of decoding.", "anchors": ["test/SimpleWebSocket.cpp: onBodyBytes, onInput, onFrame, onContinuationFrame, onMessageFrame, onPingFrame, onCloseFrame, onHeaderBytes, onReceiveBytes, setClosedState"]}
{"id": "C92", "title": "What a WebSocket writes is what it was given, in order, and it ends once", "statement": "A WebSocket server connection writes its answer to the request, the messages it was given, a Pong for each Ping and a Close, each once, whole and in the order in which they came up, and all of them: whenever the stream can be written to, everything given up to then is written. A peer that reads the frames hears those messages and no others. After shutdown() what was given before is still written, nothing after it, and then the connection ends. The end comes once, and after it no callback is called any more and nothing is written.", "quantifier": "all applications with whatever they do in callbacks, all histories of reading, writing, losing the stream and calls at any time, messages of any length", "why_tests_cant": "Calls from callbacks, pings and the writability of the stream interleave; the lengths of frames have three forms with boundaries; what is lost at the end is noticed by nobody.", "anchors": ["test/SimpleWebSocket.cpp: sendBinaryMessage, sendTextMessage, cleanClose, close, shutdown, writeBytes, writeRaw, onWritable, scheduleWrite, setClosedState, onPingFrame, onCloseFrame, writeFrame"]}
{"id": "C93", "title": "A WebSocket opens exactly for requests for a WebSocket, and answers them as the protocol says", "statement": "However the request arrives in pieces, whatever follows it and whatever the application does: onOpen is called only if the request is a GET whose fields ask for the upgrade to WebSocket version 13 with a key, whatever the case of their names and of the words, the white space around the values, the order of the fields, and the number of fields over which a value is spread. If the application doesn't interfere it is called for every such request; every other request ends the connection with onError, without answer. The answer is the first that is written; it is the one the protocol demands for the key, in which the hash can be read back from its base64.", "quantifier": "all requests made of a start line and header fields, shorter than 2^64 bytes, all cuts, all continuations, all applications, all hash functions", "why_tests_cant": "A header has arbitrarily many fields, in any order, with any white space, cut anywhere; tests use the request of one browser.", "anchors": ["test/SimpleWebSocket.cpp: onHeaderBytes, parseHeaderBlock, parseHeaderLine, getHeader, onHttpHeadersComplete, base64 encoding, split, trim"]}
{"id": "C94", "title": "What an RTMP connection gives to its application is what the other side's chunks say, whatever the cuts", "statement": "The messages that an RTMP connection delivers after the handshake are the ones that the chunks of the other side say: each whole, once, in the order in which they end, with their stream, type and timestamp; chunks of different messages may be interleaved on any chunk streams with any of the four headers, with extended timestamps, changes of the chunk size and aborted messages. The cuts of the byte stream make no difference, and neither does what the application sends or does in callbacks, other than closing and pausing. What the protocol allows is never refused; a chunk that it doesn't allow ends the connection, and nothing is delivered after it. Of a message being received never more is kept than its length, whatever arrives.", "quantifier": "all sequences of chunks allowed by the chunk stream protocol, all cuts, all handshakes, all applications with whatever they do in callbacks, all histories", "why_tests_cant": "Headers refer to what earlier chunks of the same chunk stream said, chunk streams are interleaved, sizes change in between, and everything may be cut anywhere; tests play a recording of one client.", "anchors": ["test/RTMP.cpp: onReceiveBytes, onInput, onUninitializedInput, onVersionSentInput, onAckSentInput, onOpenInput, onMessageCompleted, onControlMessage, onSetChunkSizeControlMessage, onAbortMessageControlMessage, setPaused, setClosedState"]}
{"id": "C95", "title": "What an RTMP connection gives to its stream says the messages written, in order, each as it was, and all of them", "statement": "All bytes that an RTMP connection gives to its stream are a handshake followed by chunks allowed by the protocol, and these chunks say exactly the messages that it counts as sent; one that was abandoned when a part of it had been given to the stream is not heard. The messages of a priority are sent or abandoned in the order in which they were written, each once, with the stream, type, timestamp and content given; a receipt is told that its message was sent exactly if it was; when the connection is over every message was sent or abandoned. While messages wait and the limits of both sides allow it the stream is asked for, and when it can be written to often enough everything is sent, after close() too, which ends the connection only then. Nothing undefined is done, whatever the application does in callbacks.", "quantifier": "all applications with whatever they write, close and set in callbacks, all histories of writing, receiving (any bytes), expiring, losing the stream, all chunk sizes and limits, messages of up to 16 MB", "why_tests_cant": "Headers of chunks leave out what was said before on the same of 21 chunk streams, which eight queues share; expiry in the middle of a message must undo it at the other side; what callbacks do in the middle of this is not tried by tests.", "anchors": ["test/RTMP.cpp: write, queueStartChunk, queueNextChunk, queueAbortMessage, findChunkStream, trimSendQueues, onWritable, writeRawOutputBuffer, scheduleWrite, close, setChunkSize, setClosedState, checkFlowControlWritable, onSetPeerBandwidthControlMessage"]}
{"id": "C96", "title": "What is written to one RTMP connection comes out of the other", "statement": "When what one RTMP connection gave to its stream arrives at another, in whatever pieces and however much of it, what that one delivers is always a first part of the messages that the first one sent, and it never refuses anything. When everything was given to the stream and arrived, each message written was delivered, or it was abandoned by the sender; with one priority and nothing abandoned, in the order of writing.", "quantifier": "all pairs of applications with whatever they do in callbacks, all histories of both sides, all cuts", "why_tests_cant": "Two state machines with all their interleavings, message contents and cuts.", "anchors": ["test/RTMP.cpp: all of RTMP"]}
{"id": "C97", "title": "Between a stream protocol and a TCP socket, the adapter passes on everything, once, in order, and comes to an end", "statement": "What the client of a `PosixStreamPlatformAdapter` writes is given to the socket in order, each byte once, and all of it when the socket takes it; what the socket gives is given to the client in order, each byte once, until it leaves. Only callbacks that were asked for last are called, and none after the client left. After it left, everything written is still sent, then the sending side is shut down, once; the socket is closed only if someone closes it, when it ends or fails, and then the client (if it asked) and the owner are told, once. Deferred tasks run only while the client is there and the socket is open.", "quantifier": "all clients and owners with whatever they call in callbacks and answer, all histories of calls, of what the run loop finds and of what the kernel answers (any partial writes), all sizes of a burst", "why_tests_cant": "Partial writes, callbacks that replace or drop each other while they run, leaving or closing at each point, the end of the stream with output waiting: a test sees a few of these orders, with a kernel that takes everything.", "anchors": ["test/PosixStreamPlatformAdapter.cpp: all of PosixStreamPlatformAdapter", "test/IStreamPlatformAdapter.hpp: IStreamPlatformAdapter"]}
{"id": "C98", "title": "The reader of a flow over a WebSocket is given what the messages of the flow say, in order, once, and then told of the end", "statement": "Whatever arrives at an `RTWebSocket` and whatever its application does in callbacks: what the reader of a receiving flow has been given, with the numbers of the messages, is always a first part of the whole messages that the arrived fragments of the flow say; numbers go up, and what the sender abandoned is counted. When no delivery waits to run, an open flow that isn't paused has been given all of it; while something is to be delivered or the end is to be told, a delivery waits. onComplete is called at most once, and only when the end of the flow was heard and everything was given. While the flow is paused, closed or not accepted the reader is given nothing; a reader that pauses whenever it is given a message gets one at a time. Every message of the protocol is read as it was written.", "quantifier": "all applications with whatever they call in callbacks, all histories of arriving messages (any bytes), calls, transmissions, deferred deliveries and ends of the transport, all messages of the protocol", "why_tests_cant": "Fragments of any number of flows interleave; abandonment may come in the middle of a message; deliveries are deferred, and the reader may pause, close or end the connection in any callback. Tests use a few flows with small messages.", "anchors": ["test/RTWebSocket.cpp: onBinaryMessage, onFlowOpenMessage, onDataMessage, onDataAbandonMessage, onFlowCloseMessage, RecvFlow::onData, onDataAbandon, onFlowCloseMessage, queueDelivery, deliverData, deliverCompleteAndClose, accept, close, setPaused, setBufferCapacity, sendAck", "test/RTWebSocket.hpp: RTWebSocket, RecvFlow"]}
{"id": "C99", "title": "What a flow over a WebSocket puts on the wire is what its writer was told was sent, and the other end has it", "statement": "Whatever the application writes, closes, prioritizes and abandons in callbacks and between, on however many flows: the messages of a flow on the wire begin with its opening, end with its closing, and say exactly the messages of which the writer was told that they were sent, each whole and unchanged with its place in the order of writing. The writer is told about each message at most once, in the order of writing, and of all of them before the closing is sent; when the connection is closed it is told of those waiting. When what is on the wire arrives at another end in order, the reader there has always been given a first part of the messages sent, and all of them when all arrived and it neither closed nor paused; when it is told that the flow is complete it has all of them. What was written is sent in the end.", "quantifier": "all pairs of applications with whatever they call in callbacks, all histories of both ends, all chunk sizes, windows, priorities, limits and expiries", "why_tests_cant": "Fragments of messages are cut by windows and chunk sizes, abandoned in the middle, interleaved by priority with other flows and acknowledgements, and callbacks write, close and abandon in the middle of it.", "anchors": ["test/RTWebSocket.cpp: openFlow, basicOpenFlow, SendFlow::write, close, setPriority, transmit, trimSendBuffer, transmitOneFragment, onAck, onExceptionMessage, RTWebSocket::transmit, close, scheduleTransmission, queueTransmission, ackIfNeeded", "test/RTWebSocket.hpp: RTWebSocket, SendFlow"]}
{"id": "C100", "title": "A WebSocket connection with flows leaves nothing unsent that may be sent, and sends what matters more first", "statement": "While an `RTWebSocket` is up and doesn't ask its transport for a chance to send, and there are not too many bytes in flight, no flow has anything to say that it may say: openings, closings and abandonments are sent, and data is unless the flow's window is full. Each time the transport has room, and no acknowledgement is due, exactly one flow sends one message, which fits the window of the flow and the size of a piece, and no flow of a higher priority has anything to send; only if no flow has anything, nothing is sent.", "quantifier": "all applications with whatever they write, open, close, prioritize in callbacks and between, on any number of flows, all histories of arriving messages and transmissions, all chunk sizes, windows and limits", "why_tests_cant": "A flow leaves the queue of its priority when it has nothing to send, and comes back by any of a dozen events; one event that forgets it stalls the flow for good, in an order of events that tests don't try.", "anchors": ["test/RTWebSocket.cpp: transmit, queueTransmission, scheduleTransmission, basicOpenFlow, onDataAckMessage, SendFlow::transmit, trimSendBuffer, transmitOneFragment, write, close, setPriority, onAck, onExceptionMessage"]}
{"id": "C101", "title": "Two WebSocket ends with flows don't wait for each other: all that arrives is acknowledged in time", "statement": "Whatever arrives at an `RTWebSocket` and whatever its application does: it never acknowledges more bytes of data messages than have arrived. While it is up and asks for no transmission, the bytes that have arrived and aren't acknowledged are fewer than the acknowledgement window (the largest the other end has asked for, 2800 at least); when acknowledgements are due, the next transmission acknowledges everything that has arrived. Between two ends the number of bytes in flight is the bytes sent minus the bytes acknowledged, and never wraps. So when both ends have heard all the other said and neither asks for a transmission, no flow has anything to say that its own window allows, if the limit on the bytes in flight is at least 11200, the largest acknowledgement window an end asks for. Take a flow whose number no other flow of its end has had. While the other end is up, its reader has been given a beginning of the messages that were sent, as they were written; and all of them, when all that was said has arrived, the reader is neither closed nor paused and no delivery is waiting to run. It is told that the flow is complete only when the writer has closed the flow, every message written is settled and it has been given all that were sent. And when both ends are at rest as above and the last acknowledgement of the flow, if any, did not close its window, every message written to it is settled, in order, and if it is closed it has said so: so if none was abandoned, the reader has been given exactly what was written.", "quantifier": "all pairs of applications with whatever they call in callbacks, all histories of both ends (for what is said of two ends at rest: in which trimSendBuffer doesn't run by itself and the limit isn't raised while nothing is asked for), all messages", "why_tests_cant": "Whether two ends can come to rest waiting for each other depends on the sums over all flows of what was sent, heard and acknowledged in any order; tests show some transfers that went through.", "anchors": ["test/RTWebSocket.cpp: queueAck, scheduleAckNow, sendAcks, ackIfNeeded, onAckWindowMessage, onDataAckMessage, getBytesInFlight, transmit, startRTT, RecvFlow::sendAck, RecvFlow::onData, SendFlow::onAck", "test/RTWebSocket.hpp: RTWebSocket, RecvFlow, SendFlow"]}
