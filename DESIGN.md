# Formal model of rtmfp-cpp in Lean 4: design

`/repo` (zenomt/rtmfp-cpp at the pinned commit) was read as text only.  The model is in
`lean/Verif/`, the list of properties in `properties.jsonl`, the property/theorem map in
`MANIFEST.json`, the record of mutation experiments in `seeded/LOG.jsonl`.

## Layout

* `Verif/Model/*.lean` : executable model, function by function; each definition cites the file and
  lines it models and says where it simplifies.
* `Verif/Spec/*.lean` : small specifications that do not mention the model (used where the
  statement needs vocabulary of its own; otherwise the statement is in the property file).
* `Verif/Lemmas/*.lean` : helper lemmas.
* `Verif/Props/*.lean` : the property theorems (`C01_...`), each with a non-vacuity `example`, and the
  negation witnesses for properties the code violates.

## Conventions

* Byte = `UInt8`; buffer = `List UInt8`; a C++ (pointer, limit) pair = the list of remaining bytes.
  "Reading outside of the buffer" is then a distinct outcome in the model where the code could do it;
  where the list pattern match has the same guard as the code it cannot happen by construction.
* `uintmax_t`/`size_t` are 64-bit; arithmetic that can wrap is written with explicit `% 2^64`.
* `Time` (`long double`) is modelled by `Int` (ticks) or `Rat`; rounding is not modelled.
* Callbacks are modelled as outputs, and reentrancy by explicit operation interleavings.

## Trusted base

* Lean 4.33.0 kernel; the standard axioms `propext`, `Classical.choice`, `Quot.sound` and no others.
* The reading of the C++ by the author: model definitions against cited lines.
* External functions (OpenSSL hash/HMAC/AES/DH, sockets, clocks, `std::map`, `std::vector`, allocator) are
  parameters or standard containers assumed to satisfy their documentation.

## Plan per property

| id | modelled | proof |
|----|----------|-------|
| C01-C02 | `VLU::encode/append/parse` on byte lists, values mod 2^64 | induction on digits / on the buffer |
| C03 | `parseField`, `Option::parse/append` | from C01, induction on the list |
| C04 | `PacketAssembler` as state machine over a byte buffer with cursor | invariant over op sequences |
| C05-C06 | `ISession::onReceivePacket` chunk loop | round trip by induction over chunks; in-bounds by recursion |
| C07-C08 | `IndexSet` on list of ranges, 64-bit bounds | refinement to `Nat -> Prop`, canonical invariant |
| C09-C10 | `List<T>` as slot vector with next/prev and freelist | representation invariant, refinement to sequence |
| C11 | `WriteReceipt` state machine | invariant over op histories |
| C12-C13 | `basicWrite` fragmentation loop and `assembleData` sizes | induction; arithmetic |
| C14-C16, C19 | `RecvFlow` buffer, csn, delivery | invariant relating buffer with set of arrived fragments; witness for C16 |
| C17-C18 | `assembleAck` + `onAck` range decoding | induction on canonical ranges |
| C20-C22 | `SendFlow` queue + receipts + network of packets | invariant over system steps |
| C23 | `updateCWND` on naturals | case analysis + invariant |
| C24-C25 | session / flow state machines | invariant |
| C26 | packets with transmission numbers, NAK counting | invariant with history |
| C27-C28 | 16-bit / 8-bit modular arithmetic | arithmetic |
| C29 | cookie functions over arbitrary hash | algebra, extraction of a collision |
| C30 | two-timestamp tracker | invariant against full history |
| C31 | `TimerList` with abstract actions | invariant over fire loop |
| C32 | `ReorderBuffer` | invariant |
| C33-C34 | AMF0 trees, encoder and decoder (IEEE bits opaque 64-bit) | mutual structural induction |
| C35-C36, C39-C41, C43 | codecs | round trip |
| C37-C38 | string functions | well-founded recursion, induction |
| C42 | CRC as polynomial division by shift register, in_cksum | linearity, injectivity of the shift step |
| C44-C49 | FlashCrypto with abstract cipher/MAC | invariant; algebra |
| C50 | XOR of words | algebra |
| C51 | retain/release machine | invariant |
| C52 | task queue machine | invariant |
| C53-C55 | TCConnection, Redirector client machines | invariant; witness for C54 |
| C56 | Interface queues | invariant |
| C57 | opening state | invariant |
| C58 | data chunk codec with next-fragment compression | induction over chunks |
| C59 | rational arithmetic | invariant |
| C60-C61 | smoothing, backoff, windowed minimum on rationals | invariant over histories |
| C78-C79 | Sess: a session with its ready lists, places at interfaces and all timers | invariant over all histories, then one theorem per wakeup; turns by induction over continuations |
| C80-C82 | Sess | what each operation does to the timers (all results of `step` enumerated), then invariants along continuations of any history; timing bounds as linear arithmetic; a silent session that never ends by an invariant of the stuck state |
| C83 | Mobility | all histories of an instance's sessions; what a step can do is enumerated, then invariants relate the two time stamps of a session to the checks and moves seen; a check determines time, interface and address because VLUs are prefix codes |
| C84 | Writable (on SendFlow) | all histories; invariant: wanted and writable implies a task is at the platform or the callback is running, from what each operation of SendFlow can do to the size of a queue |
| C85 | SendAge (on SendFlow) | all histories; invariant: what is in flight is started, a receipt is started exactly if a chunk of its message was sent, its creation time is that of the write; the queue is sorted and its fragments belong to accepted messages |
| C86 | Json (on AMF) | every value: the text is read by an independent JSON reader; mutual induction over values, members and elements; error of the printed digits from an invariant of the digit loop |
| C87 | EPoll (with the kernel's interest list) | every history of descriptors, registrations, waits and calls; invariants of the loop's books, the interest list against the books, and the queue of the turn; witnesses for stray pointers and unwatched numbers |
| C88 | Startup (messages, parsers, handlers), Cookie | the wire formats of RFC 7016 as a specification; parsers against it in both directions; each message through assembling, packet, padding and parsing as an equation with the exact bound; three hosts put together |
| C89 | AddressText, Address | round trips through the four `sscanf` formats for any C library whose `inet_ntop`/`inet_pton` are inverse; an equivalence for what is accepted; a concrete library that meets the assumptions; witnesses for accepted ports that are none |
| C90 | Posix (with the kernel's table of descriptors and the loops of the actions) | every history, with the application's code running inside of the callbacks; invariants of books, table, registrations and loops; four witnesses |
| C91 | WebSocket (header scan, frame decoder, callbacks, closing) | the whole stream is a function of the bytes (`say`), independent of cuts; invariant: what was delivered and what is left together say what the bytes received say; three witnesses |
| C92 | WebSocket (frame encoder, output buffer, writability, shutdown, end) | every step is a sequence of small actions (`Acts`); invariant over actions: written ++ waiting = what the log says there is to write; frames are uniquely decodable; one witness |
| C93 | WebSocket (header scan, field parser, handshake, base64) | round trip of requests through the parser, base64 against RFC 4648 with injectivity, decision logic of the handshake as an iff, run-level invariants for when `onOpen` is called |
| C94 | Rtmp (handshake, chunk parser, control messages) | a decoder of the chunk stream after the specification, chunk by chunk; the byte parser refines it at whatever is left of the stream; invariant of histories (what was taken of the stream, what is remembered, what was delivered) with arbitrary calls in callbacks |
| C95 | Rtmp (send queues, chunk headers, expiry, flow control, closing) | invariant: the decoder of the specification, given all that was said so far, is in step with the sender's chunk streams and with the half sent message of each queue; a book of what was queued, sent and abandoned; liveness by a measure of what is left |
| C96 | Rtmp, twice | composition of C94 and C95 through the byte stream |
| C97 | PosixStream (with the client's and owner's code in the callbacks, and the kernel's answers) | every event in the log is checked against what the log before it allows (`May`); invariants of books and registrations; the loop of callbacks is bounded by the room in the buffer; five witnesses |
| C98, C99 | RTWebSocket (one end with all its flows, and the application's code in the callbacks; everything that arrives is arbitrary) | a small specification of what the messages of a flow say (`hear`, `listen`); per-flow books (`Good`, `RGood`) kept by every function, with exemptions for a flow in the middle of being offered or delivered (`Rec`); both ends by monotonicity of `listen`; what is given to a flow at rest (`Still`); open flows are in the table, each once, so that closing reaches them (`Roll`); four witnesses |
| C100 | RTWebSocket (the same model) | an invariant over all functions and callbacks: who has something to send is in the queue of its priority, and a transmission is asked for (`Live`, with exemptions for a flow in the middle of a change); a failed round empties all queues and changes nothing else; a turn is followed message by message. The property speaks of what was written, settled and sent, and is led back to the invariant by the books of C99 |
| C101 | RTWebSocket, twice | the accounts of bytes (sent, arrived, owed, acknowledged) as sums over the history and over the flows, kept by every function (`Owe`; `Meek` for the functions that leave them alone); both ends by comparing sums over prefixes of what was said; with C100 for `C101_no_stall`. `C101_all_said` needs the accounts of one flow: what a flow has sent and may send as functions of its log and of what it was told (`Fl`, `Tame`), and that a receiver owes a flow nothing or less than half of what it last offered it (`Near`). `C101_carried`, `C101_delivered`, `C101_whole`: what arrived for all flows, in order, is the flow messages that came (`Hrd`; `Deaf` for the functions that hear nothing), each flow has its own, and a number opened once leads to one flow, so C99's condition on what two flows heard and said follows |

Wall-clock behaviour, sockets, memory safety outside of the modelled buffers, threads other than the
Performer hand-off, floating point rounding and performance are not expressible in the model.

## Modelled and not modelled code

What follows is by source file; every definition of the model cites its lines, and the header of each model
file says what is simplified.

| file | modelled in | left out |
|------|-------------|----------|
| VLU.cpp | VLU | calls without a limit (`nullptr`) |
| PacketAssembler.cpp, packet parser of Session.cpp | Packet | |
| IndexSet.cpp | IndexSet | a set removed from itself |
| List.hpp | List | loop bodies that change the list |
| WriteReceipt.cpp | WriteReceipt | |
| SendFlow.cpp | SendFlow, Sess, Instance, Writable, SendAge | writes from inside completion callbacks in the middle of the queue loops |
| RecvFlow.cpp | RecvFlow, Ack, Instance | the delay before a flow without an acceptor is rejected |
| Session.cpp | SendFlow, Sess, Cwnd, Ecn, SessionClock, SessionId, UserData, Ack, Instance, Mobility, Startup | diagnostics; `onUserDataChunk` and the flow model are joined in System |
| RTMFP.cpp | Cookie, TimeCritical, Instance, Startup | name and address lookups, statistics |
| Interface.cpp | Interface | |
| Timer.cpp | Timer | an action that calls `fireDueTimers` |
| RunLoop.cpp, SelectRunLoop.cpp, PosixPlatformAdapter.cpp (tasks) | RunLoop | `run` inside `run` |
| PosixPlatformAdapter.cpp (sockets) | Posix | options and addresses of sockets, the alarm |
| test/SimpleWebSocket.cpp | WebSocket | SHA-1 (a parameter); lifetimes of the objects; `isspace`, `isalpha`, `tolower` of negative characters; what the platform adapter does with the bytes |
| test/PosixStreamPlatformAdapter.cpp | PosixStream | all but socket options, `perror`, the reading of the time; `setSocketFd` is called first and once; that a callback's closure is destroyed while it runs when replaced from inside is not modelled; nor is the adapter's destruction |
| test/RTMP.cpp | Rtmp | all of RTMP but the measurement of times: `measureRTT`'s computation of `outstandingThresh` (a parameter, any value at any time), `getRTT`, `getBaseRTT`, `getUnsentAge`. Times of receipts are in a parameter (when a message is abandoned). `IStreamPlatformAdapter` as its interface says: nothing is called after `onClientClosed`. The destructor is not modelled |
| test/RTWebSocket.cpp, test/RTWebSocket.hpp | RTWebSocket | all of one end but `init`, round trip times (`measureRTT`, `addRTT`: what they do to `outstandingThresh` is a step that may come at any time), the clock (when messages expire is part of the history), `notifyWhenWritable`, and what an application calls from callbacks inside of `RTWebSocket::close`; counters are natural numbers, the bytes in flight wrap |
| Performer.cpp | Performer | |
| Retainer.hpp, Object.cpp | Retainer | overflow of the count, weak memory |
| FlashCryptoAdapter.cpp, PlainCryptoAdapter.cpp | FlashCrypto, PlainCrypto | the primitives: `Prims`, with what is assumed of them in `Prims.Ok` (AES decryption inverts encryption, lengths of hashes, Diffie-Hellman commutes), named in the theorems that use it |
| AMF.cpp | AMF, Json | objects in several places, rounding of floating point when numbers are printed |
| Address.cpp | Address, AddressText | lookup |
| Hex.cpp, Checksums.cpp, RateTracker.cpp, URIParse.cpp, Media.cpp, TCMessage.cpp | same names | printing, the regular expression, floating point rounding |
| FlowSyncManager.cpp | FlowSync, TCMessage | |
| ReorderBuffer.cpp | Reorder | `onMessage` that calls the buffer |
| TCConnection.cpp | TCConn | RTMFP transport flows of a stream |
| RedirectorClient.cpp | Redirector | FIHello mode, addresses of the redirector |
| EPollRunLoop.cpp | EPoll | registering, unregistering, clear and the turns of `run`; deferred tasks and timers are those of RunLoop (same code as in SelectRunLoop); failures of `epoll_wait` other than signals left out; of the kernel: numbers, files, the interest list after epoll(7) |
| Flow.cpp | Startup (`forwardIHello`), Instance | getters |
| PerformerPosixPlatformAdapter.cpp | Posix (`Guard`) | |
| FlashCryptoAdapter_OpenSSL.cpp | | not modelled |

Simplifications of the instance model (Model/Instance.lean): session and flow numbers stand for pointers; an opening session is marked before it is aborted;
packets kept while a session opens are replayed as steps that follow; `onShutdownComplete` is called at once; an interface exists; application code runs between
frames, so callbacks may call anything to any depth.

Simplifications of the session model (Model/Sess.lean): times are whole microseconds; new round-trip estimates and congestion windows are given (C60 and C23 are
about them); receive flows are names that want to acknowledge; how many acknowledgements fit a packet is given; packets kept while the session opened are processed as
others after it; callbacks run between the other things that happen. Timers fire at or after their time, in any order.

## Defects found

Each is proved of the model as the negation of the property on a concrete execution, beside the part that holds (`_partial`), unless it says otherwise.

1. `RecvFlow`: fragments a peer can send end in an uncaught `std::out_of_range` (C16_sequence_order_throws, C16_network_order_throws).
2. `ReorderBuffer`: `m_highestSeen` is not initialized; a repeated sequence number loses a message (C32).
3. `IndexSet::indicesDo` never ends on a set with 2^64-1 (C07_iteration_diverges_at_max).
4. `SumList::append` without a value leaves the sum wrong (C10_valueless_add_wrong).
5. `FlowSyncManager::parse` extends the sign of a count (C43_message_large_count_wrong).
6. `Message::timestamp_lt/gt` both hold half way apart (C40_half_way_ambiguous).
7. `in_cksum` puts an odd last byte in the wrong half (C42).
8. `createStream` answered with a number between 0 and 1 (C68_half); NaN transaction ids (C53).
9. `onSetKeepaliveUserCommand` sets the peer period from the server's field (C54_peer_period_wrong).
10. `Performer::close` with a call that waits (C70).
11. Timers due in one call can fire out of order (C31).
12. `Interface::onWritable` can lose a wakeup (C56).
13. Fragments don't fit packets with large front margins or huge numbers (C13_huge_numbers_stuck).
14. A completion callback set late reports wrongly (C11_late_callback_wrong_report).
15. A repeated acknowledgement of one packet counts several times towards loss (C26_not_three).
16. `FlashCryptoKey`: a second answer makes keys from public data (C64_second_answer_loses_secret); a rejected answer's requirements stay (C65).
17. AMF0 values nested deeper than 32 are encoded but not decoded (C33_too_deep).
18. Flows are moved to another peer's session (C71_misdirected); a flow opened while a session is aborted is never told (C72_forgotten); a session opens after shutdown completed (C73_reopens).
19. A `Retainer` made from `this` in a destructor destroys twice (C51_resurrected).
20. `RedirectorClient`: calls from inside the CONNECTED callback are written before authentication (C76_not_first).
21. `Session::onTimeoutAlarm`: when everything outstanding is marked lost while a receiver without room keeps the flows from sending, no timer is left that ends the session:
    a peer that is gone is never noticed (C80_unnoticed).
22. `Session::rescheduleTimeoutAlarm`: every packet with data moves the timeout alarm; small messages now and then delay noticing a silent peer well past the limit (C80_postponed).
23. `SendFlow::setBufferCapacity`: raising the capacity doesn't queue the writable notification; a user who waits is never told (C84_raise_lost).
24. `EPollRunLoop::run` looks at EPOLLIN, EPOLLOUT and EPOLLERR only: a descriptor for which the kernel finds nothing but EPOLLHUP (the reading end of a pipe whose writers are gone) gets no call, and the loop turns without sleeping (C87_hangup). With `SelectRunLoop` the action for reading is called.
25. `MAX_OPEN_EPD_LENGTH` (params.hpp) is used nowhere: `openFlow` to an endpoint discriminator too long for a hello makes a flow, no hello is ever sent (`C88_hello`, the case without room), and the flow fails after 95 seconds only. With the margin of FlashCryptoAdapter the constant would be one too large, too. Likewise answers and keyings that fit a chunk of MAX_STARTUP_PACKET_LENGTH but not a packet with its header are dropped without a word when the interface can be written to.
26. `Address::setFromPresentation` accepts numbers that are no port: "10.0.0.1:65537" is read as port 1, "10.0.0.1:-1" as port 65535, and "10.0.0.1:80junk" as port 80 (`C89_port_wraps`, `C89_rest_ignored`).
27. `PosixPlatformAdapter::onInterfaceReadable` goes on to `recvmsg` on the number of its socket after the packet callback closed the adapter: if the number was given out again in the callback, it reads from the other descriptor and gives that to RTMFP (`C90_stray`); if that one is blocking, it blocks.
28. `PosixPlatformAdapter::notifyWhenInterfaceWritable` called while the callback of the interface is being called is undone if that callback then answers no (`C90_lost`). `Interface` gets near this only in the histories of C56 (defect there).
29. A writable callback that closes the adapter is called up to three times more (`C90_after_close`).
30. `~PosixPlatformAdapter` calls `close()`, which in a destructor is the one of the base class: a `PerformerPosixPlatformAdapter` destroyed without `close()` leaves `m_isOpen_performer` true, and its queued tasks run afterwards (`C90_destroyed`).
31. `SimpleWebSocket` goes on delivering messages after the peer's Close (RFC 6455 1.4: further data is to be discarded) (`C91_after_close`).
32. After answering the peer's Close, `SimpleWebSocket` never ends the connection unless a second Close arrives or the peer closes its side of the TCP connection; RFC 6455 7.1.1 has the server close first (`C91_unclosed`).
33. After `shutdown()` in a callback, messages in the same piece of the stream are still delivered but not those in the next one (`C91_shutdown`).
34. When the peer's own Close crosses the application's `cleanClose`, messages (and the Close) still waiting to be written are dropped: the second Close ends the connection at once (`C92_crossing`).
35. Pausing and resuming an `RTMP` before `init()` closes it for good: the resumption is taken for received bytes without a connection (`C94_early`).
36. When the peer raises the bandwidth limit of an `RTMP` (Set Peer Bandwidth), nothing asks for the stream: messages that wait because of the old limit go on waiting until something else is written or acknowledged (`C95_stalled`).
37. `RTMP::trimSendQueues` keeps a reference to the first message of a queue while it calls `onFinished(false)` of its receipt: if that writes to the same priority and the list is full it is moved, and the stray reference is used (`C95_moved`); if that closes an RTMP that isn't open yet the list is emptied, and the first message of an empty list is used (`C95_emptied`); if that writes a message that has expired as well, again and again, the loop doesn't end (`C95_endless`).
38. `PosixStreamPlatformAdapter::onInterfaceReadable` treats bytes that arrive after the client left, but before its output was sent, as an error: it closes the socket, and the output waiting is lost though nothing failed (`C97_cut`). An RTMP peer that acknowledges bytes while the last messages are sent triggers this.
39. `PosixStreamPlatformAdapter::attachToRunLoop` registers for writing only if there is a callback for writing: output waiting when the adapter was detached is never sent (`C97_moved`).
40. After `onClientClosed`, the end of the stream is only noticed if the socket is still registered for reading: with a client that never read (or paused before leaving) the socket is never closed and the owner never told (`C97_unclosed`).
41. `PosixStreamPlatformAdapter`: `if(not m_onwritable()) m_onwritable = nullptr` forgets a callback given from inside of the old one; likewise `m_onreceivebytes` (`C97_forgotten`).
42. `PosixStreamPlatformAdapter::onInterfaceWritable` goes on calling the callback for writing after it closed the adapter, without end if it always has more (`C97_endless`).
43. `RTWebSocket::close` (also on an error and when the transport ends) tells the readers of its receiving flows that they are complete without delivering whole messages whose delivery was put off with `doLater`: the reader takes a cut flow for a complete one (`C98_cut`).
44. `RTWebSocket::close` settles waiting messages only of flows that are open: what waits in a flow that its writer has closed is forgotten, and no receipt is told (`C99_forgotten`).
45. `RTWebSocket::SendFlow::trimSendBuffer` holds a reference to the first message while it calls that message's `onFinished`; a write to the flow there may move the list, and closing the connection there empties it (`C99_wild`).
46. With `outstandingThresh` below 2800, the smallest acknowledgement window, both ends of an `RTWebSocket` come to rest with data unsent (`C99_stall`); the defaults avoid it.
47. `trimSendBuffer`, when it runs later by itself, asks for no transmission: a message given up then is not reported, and the closing of a flow that waited for it not sent, until something else happens to the flow (`C100_given_up`; the message must expire or be abandoned between a transmission and the deferred run).

Seen while reading, not defects of a property: a mobility check isn't bound to the session it was sent for (C83_foreign_check). Seen while reading, not proved: `SendFlow::setPriority` before the flow is bound uses a null session if data is queued; receipts of a flow closed before it is
bound are never finished; `TCStream::onDataMessage` reads a byte of an empty message; a return flow opened before the other end's FLOW_CLOSE arrives, whose FLOW_OPEN_RETURN goes out after the CLOSE_ACK, is taken for a return of whatever flow has got that number since (`RTWebSocket`); `RTWebSocket::SendFlow::doWritable` forgets a callback given from inside of the old one; `removeDotSegments("a/../b")` answers "/b";
`close()` called from `onWritable` destroys the function object being executed; `queueWritableNotify` sets `m_writablePending` after `perform`, so a platform that performs at once
would be asked only once; the keyings of a packet are not limited like hellos (each that has an old cookie for another address has a cookie change sent); an interface added with a negative number makes `StartupSession::sendPacket` to all interfaces call itself without end; a fragment queued from a completion callback during the trimming task isn't scheduled for trimming; `receiveOnePacket` copies four bytes of a control message that Linux fills with one (wrong on big endian hosts), and cuts datagrams longer than 8192 bytes silently; `maxWritesPerInterfaceWritable` 0 makes the loop spin; `addUdpInterface` and `onHowLongToSleepDidChange` before `setRtmfp` follow null pointers; `SimpleWebSocket` accepts unmasked frames and reserved bits, limits neither headers nor fragmented messages, answers pings longer than 125 bytes with frames that aren't allowed, and after `onClientClosed` goes on in an object and a function object that may just have been destroyed.

## Results per property

<!-- results begin -->

**C01 VLU round trip and size** (proved). Model: VLU. Proofs: `Props/C01_C03_VLU`. Theorems: `C01_vlu_round_trip`, `C01_vlu_encode_size`, `C01_vlu_encode_wellformed`, `C01_vlu_encode_minimal`. encode/parse for every 64-bit value; minimality against every byte string that parses to it.

**C02 VLU parsing is total and in bounds** (proved). Model: VLU. Proofs: `Props/C01_C03_VLU`. Theorems: `C02_vlu_parse_fails_iff`, `C02_vlu_parse_value`, `C02_vlu_parse_local`. total characterization of parse with a limit. Calls with limit=nullptr are not modelled.

**C03 Length-prefixed fields and options round trip** (proved). Model: VLU. Proofs: `Props/C01_C03_VLU`. Theorems: `C03_field_round_trip`, `C03_option_round_trip`, `C03_option_list_round_trip`, `C03_field_in_bounds`, `C03_option_in_bounds`. field and option round trips, option lists, in-bounds on arbitrary bytes.

**C04 Packet assembly never exceeds the packet limit** (proved). Model: Packet, VLU. Proofs: `Props/C04_C06_Packet`. Theorems: `C04_assembler_in_bounds`, `C04_assembler_in_bounds_header`, `C04_push_all_or_nothing`, `C04_push_fails_iff_full`, `C04_rollback_restores`. every call sequence after a valid init. Calls that dereference null (commit without start) are a distinct outcome and excluded.

**C05 Assembled chunks are parsed back exactly** (proved). Model: Packet, VLU. Proofs: `Props/C04_C06_Packet`. Theorems: `C05_assemble_parse`. every list of chunks of pushes that all succeed, header flags and timestamps, any 0xff padding.

**C06 Chunk parsing of arbitrary packets is in bounds** (proved). Model: Packet, VLU. Proofs: `Props/C04_C06_Packet`. Theorems: `C06_chunks_in_bounds`, `C06_all_chunks`. arbitrary byte strings.

**C07 IndexSet is a set of integers** (partial). Model: IndexSet. Proofs: `Props/C07_C08_IndexSet`. Theorems: `C07_contains`, `C07_empty`, `C07_lowest_highest`, `C07_size`, `C07_iteration_partial`, `C07_iteration_diverges_at_max`. Everything except iteration over a set containing 2^64-1, which never ends (C07_iteration_diverges_at_max). Removing a set from itself is not modelled.

**C08 IndexSet keeps its ranges canonical** (proved). Model: IndexSet. Proofs: `Props/C07_C08_IndexSet`. Theorems: `C08_canonical`, `C08_representation_unique`, `C08_minimal`. every history of add/remove/addSet/removeSet/clear; canonical, unique and minimal.

**C09 List is a sequence with stable names** (proved). Model: List. Proofs: `Props/C09_C10_List`. Theorems: `C09_list_is_sequence`, `C09_names_are_stable`, `C09_links_in_bounds`, `C09_clear`, `C09_find`. refinement to a sequence of named values for every history; traversals, find, clear, name stability and in-bounds links. valuesDo bodies that change the list are not modelled.

**C10 SumList running sum is exact** (proved). Model: List. Proofs: `Props/C09_C10_List`. Theorems: `C10_sum_exact`, `C10_valueless_add_wrong`. all histories of valued adds, removals and reorderings; the valueless add is shown to break it (C10_valueless_add_wrong).

**C11 Write receipts settle exactly once** (proved). Model: Ack, IndexSet, List, Packet, RecvFlow, SendFlow, UserData, VLU, WriteReceipt. Proofs: `Props/C11_WriteReceipt`, `Props/C20_Forward`. Theorems: `C11_callback_at_most_once`, `C11_report_is_true`, `C11_finished_is_reported`, `C11_finished_iff`, `C11_settled_forever`, `C11_abandoned_only_before_done`, `C11_abandon_effect`, `C11_deadline_decision`, `C11_chain_append`, `C11_chain_expire`, `C11_late_callback_wrong_report`, `C11_reports_in_session`. all histories of issuer and user calls, calls from inside callbacks included. Assumes a callback is installed before the receipt finishes (C11_late_callback_wrong_report shows the wrong second report otherwise) and that the issuer doesn't drop fragments while the same receipt's callback executes.

**C12 Fragmentation preserves the message** (proved). Model: IndexSet, List, Packet, RecvFlow, SendFlow, VLU, WriteReceipt. Proofs: `Props/C12_Fragment`. Theorems: `C12_write_fragments`, `C12_options_leave_room`. 

**C13 A fragment always fits an empty packet** (partial). Model: Ack, IndexSet, List, Packet, RecvFlow, SendFlow, UserData, VLU, WriteReceipt. Proofs: `Props/C13_Fits`. Theorems: `C13_never_stuck_partial`, `C13_huge_numbers_stuck`. Proved for flow ids and sequence numbers below 2^42 and front margins up to 12 bytes (all that FlashCryptoAdapter asks for); beyond, a full fragment doesn't fit (C13_huge_numbers_stuck). Also shown: a ready flow asked for data always sends.

**C14 Sequence-order delivery is exact** (proved). Model: IndexSet, Packet, RecvFlow, VLU. Proofs: `Props/C14_C16_RecvFlow`. Theorems: `C14_exact`, `C14_prefix`, `C14_all`, `C14_never_stuck`, `C14_completes`. every execution of an accepted flow that its user leaves open: exact set of delivered messages at every moment, prefix property, full delivery, completion. Timers other than the linger alarm and the reception order 'hold' are outside these theorems (C15_only_sent covers them for safety).

**C15 Network-order delivery is exact** (proved). Model: IndexSet, Packet, RecvFlow, VLU. Proofs: `Props/C14_C16_RecvFlow`. Theorems: `C15_exact`, `C15_arrived`, `C15_only_sent`. same model as C14; C15_only_sent holds for arbitrary user behaviour, callbacks included.

**C16 Arbitrary fragments cannot break the receiver** (partial). Model: IndexSet, Packet, RecvFlow, VLU. Proofs: `Props/C14_C16_RecvFlow`. Theorems: `C16_sequence_order_throws`, `C16_network_order_throws`, `C16_wellformed_partial`, `C16_loops_end`. False for the code: two concrete histories end in an uncaught exception (C16_sequence_order_throws, C16_network_order_throws). Proved: no call fails for fragments of any well-formed stream whatever the user does, and the delivery loop ends for every input.

**C17 Acknowledgement encoding is exact** (proved). Model: Ack, IndexSet, Packet, RecvFlow, VLU. Proofs: `Props/C17_C18_Ack`. Theorems: `C17_ack_exact`. every receive history (any chunks) and every packet below 64 KiB; the appended bytes are parsed with the packet parser and decoded with the sender's decoder.

**C18 Truncated acknowledgements acknowledge only received data** (proved). Model: Ack, IndexSet, Packet, RecvFlow, VLU. Proofs: `Props/C17_C18_Ack`. Theorems: `C18_truncated_subset`, `C18_refused_leaves_packet`, `C18_fits_in_60_bytes`. every receive history and every amount of room; also: a refused acknowledgement leaves the packet unchanged, and 60 free bytes are always enough.

**C19 Receiver progress is monotone** (proved). Model: IndexSet, Packet, RecvFlow, VLU. Proofs: `Props/C14_C16_RecvFlow`. Theorems: `C19_justified`, `C19_monotone`. arbitrary chunks and calls; executions in which an exception is thrown (see C16) end there.

**C20 Forward sequence number never skips live data** (proved). Model: Ack, IndexSet, List, Packet, RecvFlow, SendFlow, UserData, VLU, WriteReceipt. Proofs: `Props/C20_Forward`. Theorems: `C20_forward_never_skips`, `C20_forward_below_live`. all histories of any number of flows of a session (writes, transmissions, acknowledgements with arbitrary ranges, losses, timeouts, closings). Acknowledgements include those of a dishonest peer. Callbacks that call back into the same flow are not modelled.

**C21 Outstanding-byte accounting** (proved). Model: Ack, IndexSet, List, Packet, RecvFlow, SendFlow, UserData, VLU, WriteReceipt. Proofs: `Props/C21_Outstanding`. Theorems: `C21_flow_outstanding`, `C21_session_outstanding`, `C21_session_fragments`, `C21_transmitted_size`. all histories of any number of flows of a session (writes, transmissions, acknowledgements with arbitrary ranges, losses, timeouts, closings); 64-bit counters. A closed flow, which the session has forgotten, keeps its last count. Callbacks that call back into the same flow are not modelled.

**C22 Delivered receipts are truthful** (proved). Model: Ack, IndexSet, List, Packet, RecvFlow, SendFlow, System, UserData, VLU, WriteReceipt. Proofs: `Props/C22_Delivered`. Theorems: `C22_delivered_arrived`, `C22_delivered_reached_user`. all executions of both sides over a network that loses, repeats and reorders (an authenticated one: it doesn't invent packets); any behaviour of the receiving user.

**C23 Congestion window bounds** (proved). Model: Cwnd. Proofs: `Props/C23_Cwnd`. Theorems: `C23_window_bounds`, `C23_growth`, `C23_cut`, `C23_one_cut`, `C23_timeout`. every history of acknowledgements, losses and timeouts with consistent byte counts below 2^57; tests of times are arbitrary booleans. Bounds, growth, cuts, recovery and timeouts.

**C24 Session lifecycle is monotone** (proved). Model: Instance. Proofs: `Props/C24_Instance`. Theorems: `C24_lifecycle`, `C24_closed_stays`, `C24_once`, `C24_notified`, `C24_no_assert`, `C24_at_rest`, `C24_limit`. all histories of an instance, application calls from inside callbacks included (Model/Instance.lean)

**C25 Flow lifecycle notifications** (proved). Model: Ack, IndexSet, List, Packet, RecvFlow, SendFlow, UserData, VLU, WriteReceipt. Proofs: `Props/C14_C16_RecvFlow`, `Props/C25_SendFlow`. Theorems: `C25_recv_complete_last`, `C25_exception_once`, `C25_closed_refuses`. receiving side and sending side, every history.

**C26 Loss is only declared after three later acknowledgements** (partial). Model: Ack, IndexSet, List, Packet, RecvFlow, SendFlow, UserData, VLU, WriteReceipt. Proofs: `Props/C26_Loss`. Theorems: `C26_three_partial`, `C26_only`, `C26_timeout`, `C26_retransmit`, `C26_first`, `C26_not_three`. violated as stated: what is counted is packets with acknowledgements, not packets that arrived, so a repeated acknowledgement of one later packet loses a fragment (C26_not_three). C26_three_partial gives the exact rule. Loss happens only so or by a timeout (C26_only, C26_timeout); what is sent again is reliable and not abandoned (C26_retransmit), and is sent before anything newer (C26_first)

**C27 Packet timestamps and RTT sampling** (proved). Model: SessionClock. Proofs: `Props/C27_Timestamps`. Theorems: `C27_samples_true`, `C27_sample_taken`. all executions of two hosts with different epochs over a network that loses, duplicates, delays and reorders packets; exact rational time. Samples are characterized for transits below the wrap period of 262 s (beyond it 16 bits can't tell).

**C28 ECN congestion-experienced counting** (proved). Model: Ecn. Proofs: `Props/C28_Ecn`. Theorems: `C28_signals_exact`, `C28_bounds_tight`, `C28_report_counts`. every sequence of marks and of delayed or reordered reports within the stated window.

**C29 Startup cookies bind address and time** (proved). Model: Address, Cookie, VLU. Proofs: `Props/C29_Cookie`. Theorems: `C29_accepted`, `C29_accepted_iff`, `C29_expires`, `C29_other_address`, `C29_moved`, `C29_unforgeable`, `C29_mismatch`. any hash function; that forging needs the secret is stated as: acceptance implies the cookie carries the hash of its contents, the address and the secret.

**C30 Time-critical reporting to other peers** (proved). Model: TimeCritical. Proofs: `Props/C30_TimeCritical`. Theorems: `C30_report_iff`, `C30_not_to_self`. any number of sessions and any clock values, exact rational arithmetic.

**C31 Timers fire in order, once, and never after cancellation** (partial). Model: Timer. Proofs: `Props/C31_Timers`. Theorems: `C31_none_due`, `C31_fires`, `C31_moved_fires`, `C31_earliest`, `C31_order_partial`, `C31_order_fails`, `C31_cancelled`, `C31_recurs_later`, `C31_recurs`, `C31_one_shot`, `C31_returns`, `C31_wakes`. Integer times; actions do anything but call fireDueTimers and (for their own timer) addTimer. All parts are proved for all executions, except that the order of due times within one call needs the condition that no action schedules a timer for before its own due time: C31_order_partial, and C31_order_fails shows that it is necessary. C31_returns (the call ends) and C31_wakes go beyond the claim.

**C32 Reorder buffer delivers in order, once** (partial). Model: Reorder, VLU. Proofs: `Props/C32_Reorder`. Theorems: `C32_never_aborts`, `C32_exactly_once_partial`, `C32_flush_partial`, `C32_in_time`, `C32_timer_serves`, `C32_late_iff`, `C32_in_order`, `C32_no_gap_partial`, `C32_closed`, `C32_flush_uninitialized`, `C32_flush_uninitialized_order`, `C32_same_number_lost`. All schedules, proved for distinct sequence numbers below 2^64 - 1, a clock that doesn't go back, callbacks that don't call the buffer, and an initial m_highestSeen other than 2^64 - 1 (C32_no_gap_partial: 0). The member is not initialized: C32_flush_uninitialized and C32_flush_uninitialized_order show what can happen; C32_same_number_lost shows why numbers have to be distinct.

**C33 AMF0 values round trip** (proved). Model: AMF. Proofs: `Props/C33_C34_AMF`. Theorems: `C33_round_trip`, `C33_round_trip_same`, `C33_too_deep`, `C33_sequence`, `C33_duplicate`, `C33_objects`, `C33_put_get`, `C33_erase_get`. every value tree (any nesting, keys, strings, numbers by their 64 bits). Missing members (null pointers) come back as undefined; values nested deeper than 32 are encoded but not decoded (C33_too_deep). Left out: one object in several places of a tree, cycles, arrays of 2^32 elements (whose encoding would not end).

**C34 AMF0 decoding of arbitrary bytes is safe** (proved). Model: AMF. Proofs: `Props/C33_C34_AMF`. Theorems: `C34_safe`, `C34_safe_sequence`, `C34_stable`. arbitrary byte strings.

**C35 Address encoding and ordering** (proved). Model: Address. Proofs: `Props/C35_Address`. Theorems: `C35_encode_round_trip`, `C35_decode_safe`, `C35_mapping`, `C35_strict_total_order`, `C35_encode_injective`. every sequence of calls that makes an address, arbitrary bytes for decoding. Text forms (inet_ntop and getaddrinfo) are not modelled.

**C36 Hex coding** (proved). Model: Hex. Proofs: `Props/C36_Hex`. Theorems: `C36_decode_accepts`, `C36_decode_result`, `C36_round_trip`, `C36_encode_form`, `C36_decode_byte`. every byte string, both directions.

**C37 URI path normalization removes all dot segments** (proved). Model: Hex, Uri. Proofs: `Props/C37_C38_Uri`. Theorems: `C37_resolves`, `C37_no_dot_segments`, `C37_idempotent`, `C37_absolute`, `C37_merge`. every path: equality with an independent description of resolution, merging with a base path, idempotence. The regular expression that takes a URI apart is not modelled.

**C38 String splitting and percent decoding** (proved). Model: Hex, Uri. Proofs: `Props/C37_C38_Uri`. Theorems: `C38_split`, `C38_split_no_separators`, `C38_percent_in_bounds`, `C38_percent_decode`. every string; reads past the terminator are a distinct outcome shown not to occur.

**C39 TC message and metadata codecs** (proved). Model: TCMessage, VLU. Proofs: `Props/C39_C40_TCMessage`. Theorems: `C39_header_round_trip`, `C39_header_parse`, `C39_metadata_round_trip`, `C39_metadata_parse`. every type, timestamp, stream id and payload; parsers characterized on arbitrary bytes.

**C40 Wrapping timestamp comparison** (proved). Model: TCMessage, VLU. Proofs: `Props/C39_C40_TCMessage`. Theorems: `C40_timestamp_order`, `C40_trichotomy`, `C40_half_way_ambiguous`, `C40_diff_congruent`. all pairs of 32-bit timestamps; exactly half way apart each is both before and after the other (C40_half_way_ambiguous), which the claim excludes.

**C41 Media message headers** (proved). Model: AMF, Media, VLU. Proofs: `Props/C41_Media`. Theorems: `C41_round_trip`, `C41_in_bounds`, `C41_times_meaning`, `C41_ticks_exact`, `C41_times_near`, `C41_message_times`. every message; arbitrary bytes; conversions of times with exact rational arithmetic (rounding of long double is not modelled). Of a dishonest sender the sum of decode time and offset may wrap at 2^64.

**C42 Checksums** (proved). Model: Checksums. Proofs: `Props/C42_Checksums`. Theorems: `C42_crc_remainder`, `C42_crc_incremental`, `C42_burst_le`, `C42_burst_be`, `C42_cksum_value`, `C42_cksum_verifies`, `C42_cksum_detects_word`, `C42_cksum_odd_not_rfc1071`. arbitrary buffers: incremental computation, all burst errors up to 32 bits, Internet checksum value, verification and single word errors. For odd lengths the last byte is the low half of its word (not as in RFC 1071, C42_cksum_odd_not_rfc1071).

**C43 Flow synchronization** (partial). Model: FlowSync, TCMessage, VLU. Proofs: `Props/C39_C40_TCMessage`, `Props/C43_FlowSync`. Theorems: `C43_message_round_trip_partial`, `C43_message_large_count_wrong`, `C43_parse_sound`, `C43_reached_iff`, `C43_held_iff`, `C43_otherwise_unchanged`, `C43_network_never_held`, `C43_release`. Barriers for every history of calls. Messages: counts below 2^31 round trip, and the parsed count is wrong for larger ones (C43_message_large_count_wrong: sign extension).

**C44 No replayed packet is accepted** (proved). Model: Checksums, FlashCrypto, IndexSet, VLU. Proofs: `Props/C44_C45_Packets`. Theorems: `C44_no_number_twice`, `C44_no_replay`. every history of received datagrams, any primitives; numbers are read from the decrypted packets.

**C45 Packet encryption round trip** (proved). Model: Checksums, FlashCrypto, IndexSet, PlainCrypto, VLU. Proofs: `Props/C44_C45_Packets`, `Props/C48_C49_Identity`. Theorems: `C45_round_trip`, `C45_any_order`, `C45_plain_round_trip`. any primitives with AES decryption inverting encryption and 32-byte MACs; one packet in every mode, and whole sessions with loss and reordering. Also the plain adapter.

**C46 Security option negotiation agrees** (proved). Model: Checksums, FlashCrypto, IndexSet, VLU. Proofs: `Props/C46_C47_Keying`. Theorems: `C46_negotiation`, `C46_initiator_never_drops`, `C46_responder_never_drops`. an exchange between any two configurations (static or ephemeral keys on either side) run through the option encodings; and for arbitrary received bytes, that acceptance never drops a requirement.

**C47 Derived keys agree** (proved). Model: Checksums, FlashCrypto, IndexSet, PlainCrypto, VLU. Proofs: `Props/C46_C47_Keying`, `Props/C48_C49_Identity`. Theorems: `C47_keys_agree`, `C47_plain_nonces`. the same exchanges, any MAC; Diffie-Hellman is assumed to commute. Also the plain adapter.

**C48 Endpoint selection** (proved). Model: Checksums, FlashCrypto, IndexSet, PlainCrypto, VLU. Proofs: `Props/C48_C49_Identity`. Theorems: `C48_adapter_selected_iff`, `C48_cert_selected_iff`, `C48_adapter_and_cert_agree`, `C48_canonical_exact`, `C48_made_fields`, `C48_plain_exact`. arbitrary bytes as discriminators and certificates, described by the options in them; adapters made by init and the certificates parsed from them agree.

**C49 Glare resolution is antisymmetric** (proved). Model: Checksums, FlashCrypto, IndexSet, PlainCrypto, VLU. Proofs: `Props/C48_C49_Identity`. Theorems: `C49_one_winner`, `C49_plain_one_winner`. all pairs of certificates, both adapters.

**C50 Session id scrambling** (proved). Model: SessionId. Proofs: `Props/C50_SessionId`. Theorems: `C50_demultiplexed`, `C50_reaches_session`, `C50_startup`, `C50_injective`. all ciphertexts and ids, any byte order of the two hosts.

**C51 Reference counting** (proved). Model: Retainer. Proofs: `Props/C51_Retainer`. Theorems: `C51_once`, `C51_not_used`, `C51_prompt`, `C51_exact`, `C51_members`, `C51_comes_to_rest`, `C51_pointers`, `C51_resurrected`. every history of any number of threads, destructors with arbitrary application code and members included; atomics are sequentially consistent, the count has no bound, and retainers themselves are not accessed by two threads at once. A destructor that makes a retainer for its own object is excluded (C51_resurrected shows that it destroys twice). C51_pointers: a retainer moved to itself is emptied.

**C52 Deferred tasks run once in order** (proved). Model: Performer, RunLoop. Proofs: `Props/C52_DoLater`. Theorems: `C52_in_order`, `C52_all_run`, `C52_skipped`, `C52_closed`, `C52_soon`. all histories of one thread, including what tasks, actions and timers do; nested run() is not modelled. Tasks of the performer-based adapter are C70.

**C53 Transactions get their own response once** (partial). Model: AMF, TCConn. Proofs: `Props/C53_Transactions`. Theorems: `C53_once`, `C53_own_response`, `C53_unknown_partial`, `C53_not_a_number`, `C53_close`, `C53_end`. histories of fewer than 2^53 events (after that the double transaction counter no longer advances); once, own response, failure for all at close and termination of closing are proved; that unknown ids invoke nothing holds for ids that are numbers (C53_unknown_partial), C53_not_a_number shows that a NaN id answers the first unanswered request

**C54 Set-keepalive command** (partial). Model: TCMessage, VLU. Proofs: `Props/C39_C40_TCMessage`. Theorems: `C54_server_period_partial`, `C54_peer_period_wrong`, `C54_ignored`. The server period is as stated; the peer period is set from the server's field instead of its own (C54_peer_period_wrong).

**C55 Redirector client reconnection** (proved). Model: Redirector, VLU. Proofs: `Props/C55_Redirector`. Theorems: `C55_spacing`, `C55_retries`, `C55_closed`, `C55_load`, `C55_safe`. RedirectorClient (Model/Redirector.lean): attempts spaced by at least 5 s and the minimum interval, retried until closed, silent after close, load factor told or a timer pending, no null flow used

**C56 Interface write scheduling** (partial). Model: Interface. Proofs: `Props/C56_Interface`. Theorems: `C56_priority`, `C56_round_robin`, `C56_once`, `C56_kept`, `C56_heard`, `C56_wakeup_partial`, `C56_waits_in_vain`, `C56_unheard`. who is asked and in which order, turns within a priority, at most once per priority, kept until idle and requests heard hold for all histories, including writes scheduled while sessions are asked; that somebody waiting always has a pending notification holds only when sessions that send nothing do not cause writes at higher priorities (C56_wakeup_partial), and C56_waits_in_vain / C56_unheard exhibit histories of the code where it fails

**C57 Session opening state is bounded** (proved). Model: Instance. Proofs: `Props/C24_Instance`. Theorems: `C57_waiting`, `C57_no_state`, `C57_early`. all packets, in any number and order

**C58 User data chunk headers round trip** (proved). Model: Ack, IndexSet, List, Packet, RecvFlow, SendFlow, UserData, VLU, WriteReceipt. Proofs: `Props/C58_DataChunks`. Theorems: `C58_data_chunks_round_trip`. any history and any state of the reader; packets below 64 KiB, sequence numbers below 2^64.

**C59 Rate tracker** (proved). Model: RateTracker. Proofs: `Props/C59_RateTracker`. Theorems: `C59_nonneg`, `C59_bounded`, `C59_zero_after_two_windows`, `C59_recent_positive`. all histories with any clock, exact rational arithmetic.

**C60 Retransmission timeout** (proved). Model: SessionClock. Proofs: `Props/C60_C61_Rtt`. Theorems: `C60_bounds`, `C60_sample_restores`, `C60_backs_off`. all sequences of non-negative samples and timeouts, exact rational arithmetic.

**C61 Base round-trip time** (proved). Model: SessionClock. Proofs: `Props/C60_C61_Rtt`. Theorems: `C61_base_is_recent_minimum`. all histories, exact rational arithmetic.

**C62 A flow from end to end** (proved). Model: Ack, IndexSet, List, Packet, RecvFlow, SendFlow, System, UserData, VLU, WriteReceipt. Proofs: `Props/C22_Delivered`. Theorems: `C62_only_written`, `C62_in_order`, `C62_reliable`, `C62_all_delivered`, `C62_complete_means_all`. composition of the models of the sending side, packets, the parsers and the receiving flow. A flow that is closed may add an empty message at the end, which is only given to the receiving user if the sender's clock goes backward.

**C63 Older fragments are sent first** (proved). Model: Ack, IndexSet, List, Packet, RecvFlow, SendFlow, UserData, VLU, WriteReceipt. Proofs: `Props/C13_Fits`. Theorems: `C63_oldest_first`. all histories; follows from an invariant about the position transmission resumes from.

**C64 A repeated keying answer keeps the keys** (partial). Model: Checksums, FlashCrypto, IndexSet, VLU. Proofs: `Props/C46_C47_Keying`. Theorems: `C64_second_answer_loses_secret`, `C64_second_answer_partial`. False for the code when the responder's key is static: the second answer makes keys from the erased secret, i.e. from public data alone (C64_second_answer_loses_secret, for all configurations). With an ephemeral responder nothing changes (C64_second_answer_partial). That the answer can be combined twice (src/Session.cpp:1364-1388 tests the state only before and after the work) is an argument in DESIGN.md, not a theorem.

**C65 A rejected keying answer has no effect** (partial). Model: Checksums, FlashCrypto, IndexSet, VLU. Proofs: `Props/C46_C47_Keying`. Theorems: `C65_rejected_answer_partial`, `C65_rejected_answer_counts`, `C65_rejected_answer_crashes`. False for the code: requirements in a rejected answer stay in force, so the genuine answer ends in disagreement (C65_rejected_answer_counts) or the next packet uses a missing HMAC context (C65_rejected_answer_crashes). Proved for all answers: no key changes and nothing required before is dropped.

**C66 Media track descriptions survive their metadata** (proved). Model: AMF, Media, VLU. Proofs: `Props/C66_C67_MediaTrack`. Theorems: `C66_round_trip`, `C66_equal`, `C66_safe`, `C66_required`. every description and arbitrary bytes; exact rational arithmetic instead of long double. C66_equal needs ticks of at least 2^-63 seconds.

**C67 Media tracks are consistently ordered** (proved). Model: AMF, Media, VLU. Proofs: `Props/C66_C67_MediaTrack`. Theorems: `C67_track_order`, `C67_stream_track_order`. all tracks.

**C68 Streams of a connection have distinct ids and close with it** (partial). Model: AMF, TCConn. Proofs: `Props/C53_Transactions`. Theorems: `C68_streams`, `C68_open`, `C68_refused`, `C68_closed_partial`, `C68_half`. opening, distinct ids, routing and at-most-once opening hold for all histories of fewer than 2^53 events; closing without assertion failure holds unless a stream got the id 0 (C68_closed_partial), C68_half shows that a server answering createStream with 0.5 makes the client abort at close

**C69 Actions of descriptors** (proved). Model: Performer, RunLoop. Proofs: `Props/C52_DoLater`. Theorems: `C69_registered`, `C69_one`, `C69_ready`, `C69_stopped`. select-based run loop; all histories; nested run() is not modelled.

**C70 Tasks handed to another thread** (partial). Model: Performer, RunLoop. Proofs: `Props/C52_DoLater`. Theorems: `C70_in_order`, `C70_wakes`, `C70_reads`, `C70_waits`, `C70_started`, `C70_never_returns`, `C70_waits_forever`, `C70_started_closed`, `C70_returns_partial`. all interleavings of any number of threads, close called by the loop's thread. Order, at most once, no lost wakeup and returning only after the task hold. That a waiting call always returns holds unless the performer is closed (C70_returns_partial); a task thrown away by closing leaves its caller waiting forever (C70_never_returns, C70_waits_forever), and a waiting call in the loop's own thread starts its task although closed meanwhile (C70_started_closed)

**C71 Flows talk to the peer they were opened to** (partial). Model: Instance. Proofs: `Props/C24_Instance`. Theorems: `C71_peer_partial`, `C71_misdirected`. violated: when a hello finds a session to the same peer already opening, every flow waiting for a session not yet answered is moved to it (C71_misdirected, SendFlow.cpp:285-300). Holds for flows that were not moved (C71_peer_partial)

**C72 Every flow learns what became of its session** (partial). Model: Instance. Proofs: `Props/C24_Instance`. Theorems: `C72_told`, `C72_closed_silent`, `C72_rest_partial`, `C72_forgotten`. C72_told holds for all histories. Violated in that a flow opened to the same peer from a completion callback while the session is being aborted stays bound to it and is never told (C72_forgotten); C72_rest_partial names that as the only exception

**C73 Shutting down completes, once, and for good** (partial). Model: Instance. Proofs: `Props/C24_Instance`. Theorems: `C73_once`, `C73_completes`, `C73_no_new_partial`, `C73_reopens`. reported once and with nothing left (C73_once), always gets there (C73_completes). Violated: shut down from the exception callback of a session being overridden, the completion is reported and then a session opens (C73_reopens); otherwise no new sessions (C73_no_new_partial)

**C74 An open session ends only for cause** (proved). Model: Instance. Proofs: `Props/C24_Instance`. Theorems: `C74_cause`. all histories of an instance, application calls from inside callbacks included

**C75 The redirector knows how the server is registered** (proved). Model: Redirector, VLU. Proofs: `Props/C55_Redirector`. Theorems: `C75_registered`. the registration is read back from the messages by the option parser (C03)

**C76 A redirector connection begins with authentication** (partial). Model: Redirector, VLU. Proofs: `Props/C55_Redirector`. Theorems: `C76_opening_partial`, `C76_quiet`, `C76_not_first`. false as stated: calls from inside the CONNECTED callback write before the authentications (C76_not_first); proved for callbacks that don't call the client, with the exact messages, and that nothing is written before the connection is open

**C77 Statuses of a redirector client are reported in order** (proved). Model: Redirector, VLU. Proofs: `Props/C55_Redirector`. Theorems: `C77_statuses`. statuses reported form a path of the connection's life; close() isn't reported

**C78 Data that waits is never forgotten** (proved). Model: Ack, IndexSet, List, Packet, RecvFlow, SendFlow, Sess, UserData, VLU, WriteReceipt. Proofs: `Props/C78_NoStall`. Theorems: `C78_no_stall`, `C78_served`, `C78_burst_alarm`, `C78_timeout_alarm`, `C78_other_interface`, `C78_probes`. sessions (Model/Sess.lean) with all timers: an invariant over all histories says what a flow with data waits for; one theorem per wakeup

**C79 Flows of equal priority take turns** (proved). Model: Ack, IndexSet, List, Packet, RecvFlow, SendFlow, Sess, UserData, VLU, WriteReceipt. Proofs: `Props/C78_NoStall`. Theorems: `C79_turns`, `C79_equal`. packets counted in what is sent; any continuation of any history

**C80 A peer that is gone is noticed, and one that answers is kept** (partial). Model: Ack, IndexSet, List, Packet, RecvFlow, SendFlow, Sess, UserData, VLU, WriteReceipt. Proofs: `Props/C80_Silence`. Theorems: `C80_not_before`, `C80_in_time_partial`, `C80_ends_partial`, `C80_watched`, `C80_keepalive`, `C80_unnoticed`, `C80_postponed`. false as stated: with data waiting for a receiver without room, a timeout leaves no timer set that ends the session, which stays open for ever (C80_unnoticed), and each packet sent postpones the end by a timeout (C80_postponed); proved: never too early, the bound with that postponement if after each timeout something is sent (C80_in_time_partial), that such a session does end, as the postponements are limited by the congestion window (C80_ends_partial), and what watches an open session

**C81 Received data is acknowledged in time** (proved). Model: Ack, IndexSet, List, Packet, RecvFlow, SendFlow, Sess, UserData, VLU, WriteReceipt. Proofs: `Props/C81_Acks`. Theorems: `C81_remembered`, `C81_in_time`, `C81_at_once`, `C81_sent`. sessions (Model/Sess.lean): an invariant for the acknowledgements owed, carried along any continuation of any history; packets with data counted in what arrived

**C82 An idle session ends, and a used one does not** (proved). Model: Ack, IndexSet, List, Packet, RecvFlow, SendFlow, Sess, UserData, VLU, WriteReceipt. Proofs: `Props/C82_Idle`. Theorems: `C82_not_before`, `C82_in_time`, `C82_watched`. sessions (Model/Sess.lean): both directions of the idle limit, along any continuation of any history

**C83 A session follows its peer only where it answered** (proved). Model: Address, Cookie, Mobility, VLU. Proofs: `Props/C83_Mobility`. Theorems: `C83_only_where_answered`, `C83_needs_secret`, `C83_no_replay`, `C83_rate`, `C83_destination`, `C83_follows`, `C83_foreign_check`. Model/Mobility.lean: all sessions of an instance with its secret and clock; the hash function is a parameter, what is assumed of it is in the statements; C83_foreign_check: the checks are not bound to a session, one can move by a check sent for another (to the same address)

**C84 A flow that can be written to says so, and only then** (partial). Model: Ack, IndexSet, List, Packet, RecvFlow, SendFlow, UserData, VLU, Writable, WriteReceipt. Proofs: `Props/C84_Writable`. Theorems: `C84_told_partial`, `C84_kept`, `C84_one`, `C84_only`, `C84_again`, `C84_closed`, `C84_raise_lost`. false as stated: raising the capacity with setBufferCapacity wakes nobody (C84_raise_lost: an execution after which, whatever else happens, the flow stays writable and its user is never told); proved when the capacity is never raised (C84_told_partial). The other parts hold for all histories

**C85 A sending flow tells truly how long its messages wait** (proved). Model: Ack, IndexSet, List, Packet, RecvFlow, SendAge, SendFlow, UserData, VLU, WriteReceipt. Proofs: `Props/C85_SendAge`. Theorems: `C85_created`, `C85_started`, `C85_buffered`, `C85_buffered_none`, `C85_unstarted`, `C85_unstarted_none`. all histories of the sending side of a session

**C86 The JSON of a value is JSON and means the value** (proved). Model: AMF, Json. Proofs: `Props/C86_Json`. Theorems: `C86_json`, `C86_whole`, `C86_same_text`, `C86_utf8`, `C86_line`, `C86_repr`. Model/Json.lean against an independent reader of RFC 8259 (Spec/Json.lean). Arithmetic on fractions is exact (in the code remainders are rounded to double); what log10l and powl yield for numbers from 2^64 or below 0.0001 is a parameter, of which ShiftOk (from 1 to 10) is assumed, so accuracy there is relative to it. Fifteen digits don't tell all doubles apart (C86_same_text).

**C87 The epoll run loop calls the actions of ready descriptors, and only those in force** (partial). Model: EPoll, RunLoop. Proofs: `Props/C87_EPoll`. Theorems: `C87_in_force`, `C87_one`, `C87_ready`, `C87_asked`, `C87_heard_partial`, `C87_safe`, `C87_wild`, `C87_unwatched`, `C87_hangup`, `C87_cleared`. false as stated in one respect: of what the kernel finds, a hang-up alone (the reading end of a pipe after its writers are gone) is not looked at, so that the action for reading is not called though reading would not block, turn after turn (C87_hangup, for every history); what else is found is heard (C87_heard_partial). The other parts hold for all histories; C87_wild and C87_unwatched show that unregistering before closing is needed. The interest list of the kernel is modelled after epoll(7)

**C88 Startup messages say what was said, and introductions lead back to whom they are for** (proved). Model: Address, Cookie, Packet, SessionId, Startup, VLU. Proofs: `Props/C88_Startup`. Theorems: `C88_understood`, `C88_hello`, `C88_answer`, `C88_redirect`, `C88_keying`, `C88_keyed`, `C88_cookie_change`, `C88_once`, `C88_whom`, `C88_forwarded`, `C88_asked`, `C88_answered`, `C88_introduced`, `C88_cookie`. Model/Startup.lean against the wire formats of RFC 7016 (Spec/Startup.lean). Packets are joined at the plaintext (encryption: C38 and others); margins up to 32 bytes; the crypto adapter, the hash and the signature are parameters; what sessions do with the calls is in Model/Instance.lean. Messages that have no room are never sent and nothing tells the user (the none cases)

**C89 An address is read back from its text, and nothing else is** (partial). Model: Address, AddressText. Proofs: `Props/C89_AddressText`. Theorems: `C89_round_trip`, `C89_round_trip_bare`, `C89_accepted_bare`, `C89_injective`, `C89_accepted_partial`, `C89_port_wraps`, `C89_rest_ignored`, `C89_made`. False for the code in one respect: numbers that are no port are accepted and cut to 16 bits (C89_port_wraps), and so is anything after the number (C89_rest_ignored). Exactly what is accepted, and that what is refused changes nothing, is C89_accepted_partial and C89_accepted_bare. The round trips and C89_injective hold for all addresses. inet_ntop and inet_pton are parameters (Net.Ok: inverse to each other, the usual characters and lengths); sscanf is modelled for the four formats used, as glibc does it for numbers out of range

**C90 The socket adapter reads, writes and tells for the interface it says, and is silent when closed** (partial). Model: Posix. Proofs: `Props/C90_Posix`. Theorems: `C90_received_partial`, `C90_heard`, `C90_only`, `C90_told_partial`, `C90_burst`, `C90_write`, `C90_descriptors`, `C90_closed_partial`, `C90_stray`, `C90_lost`, `C90_after_close`, `C90_tasks_partial`, `C90_destroyed`. False for the code in four respects, each with a witness: closed while a packet is being delivered, the adapter goes on reading from the number of the closed socket (C90_stray); a callback asked for while another is being called is forgotten if that one answers no (C90_lost); a callback that closes the adapter and answers yes is called again (C90_after_close); a PerformerPosixPlatformAdapter that is destroyed without close() still runs its tasks (C90_destroyed). Everything else holds for all histories; the _partial theorems exclude exactly those cases. Order and number of the tasks: C52 and C70

**C91 What arrives at a WebSocket is what the peer's frames say, however the stream cuts them** (partial). Model: Hex, Uri, WebSocket. Proofs: `Props/C91_WebSocketReceive`. Theorems: `C91_prefix`, `C91_received_partial`, `C91_violation`, `C91_after_close`, `C91_unclosed`, `C91_shutdown`. False for the code in three respects, each with a witness: frames after a Close are still delivered (C91_after_close), the connection isn't ended when the Close has been answered (C91_unclosed: however long one waits), and what arrives after shutdown() depends on the cuts (C91_shutdown). Never anything else than the beginning of what the frames say: C91_prefix, for all histories and applications whose stream has nothing after a Close. Exactly it: C91_received_partial, for applications that don't close or shut down. Rules broken or longer than 16 MB: C91_violation

**C92 What a WebSocket writes is what it was given, in order, and it ends once** (partial). Model: Hex, Uri, WebSocket. Proofs: `Props/C92_WebSocketSend`. Theorems: `C92_order`, `C92_written_partial`, `C92_heard`, `C92_end`, `C92_shutdown`, `C92_crossing`. False for the code in one respect, with a witness: a message and the Close that wait to be written when the peer's own Close arrives are never written (C92_crossing). Order and nothing else (C92_order), what the peer hears (C92_heard), the end (C92_end) and shutdown() (C92_shutdown) hold for all applications and histories; that everything gets written: C92_written_partial, unless the connection has ended before the stream could be written to

**C93 A WebSocket opens exactly for requests for a WebSocket, and answers them as the protocol says** (proved). Model: Hex, Uri, WebSocket. Proofs: `Props/C93_WebSocketOpen`. Theorems: `C93_only`, `C93_opened_iff`, `C93_answered`, `C93_answer_injective`. requests without body, made of a start line of three parts and valid header fields (RFC 7230, without obsolete line folding), of less than 2^64 bytes. SHA-1 is a parameter. What the code doesn't look at (Host, the version of HTTP, the length of the key) is not in the specification of a request either; Connection is only searched for the letters of upgrade

**C94 What an RTMP connection gives to its application is what the other side's chunks say, whatever the cuts** (proved). Model: Rtmp. Proofs: `Props/C94_RtmpReceive`. Theorems: `C94_prefix`, `C94_heard`, `C94_exactly`, `C94_accepted`, `C94_refused`, `C94_version`, `C94_bounded`, `C94_early`. histories that begin with init(). Chunk stream ids of 64 and more least significant byte first, as everybody does it and not as the document says. In the completeness theorems: nothing undefined has happened (see the defects of C95 for when it does), the application has neither closed nor paused. What is said by acknowledgements, window sizes and peer bandwidths has no meaning for what is delivered

**C95 What an RTMP connection gives to its stream says the messages written, in order, each as it was, and all of them** (partial). Model: Rtmp. Proofs: `Props/C95_RtmpSend`. Theorems: `C95_wire`, `C95_order`, `C95_written`, `C95_once`, `C95_told`, `C95_over`, `C95_flushed`, `C95_graceful`, `C95_sends_partial`, `C95_closes`, `C95_calm_partial`, `C95_moved`, `C95_endless`, `C95_emptied`, `C95_stalled`. False for the code in four respects, each with a witness: when the other side raises its limit nothing asks for the stream, and what was written waits for something else to happen (C95_stalled); an application that writes in the onFinished of an abandoned message has the list moved away under trimSendQueues (C95_moved) or never gets out of it (C95_endless), and one that closes there has it emptied (C95_emptied). What is said on the wire (C95_wire), order, content, receipts, the end (C95_order, C95_written, C95_once, C95_told, C95_over), when it stops asking for the stream (C95_flushed, C95_graceful) hold without restriction on the application; that everything is sent, once it asks for the stream, and with limits of at least 2^32 is C95_sends_partial and C95_closes; that nothing undefined is done by an application that neither writes nor closes when told that a message was abandoned is C95_calm_partial.

**C96 What is written to one RTMP connection comes out of the other** (proved). Model: Rtmp. Proofs: `Props/C96_RtmpBoth`. Theorems: `C96_prefix`, `C96_accepted`, `C96_all`, `C96_delivered`, `C96_single`. composition of C94 and C95. To be delivered everything: the receiving application has neither closed nor paused, and nothing undefined has happened there (C95_calm_partial says when it can't)

**C97 Between a stream protocol and a TCP socket, the adapter passes on everything, once, in order, and comes to an end** (partial). Model: PosixStream. Proofs: `Props/C97_StreamAdapter`. Theorems: `C97_right`, `C97_silent`, `C97_sent`, `C97_received`, `C97_flushed_partial`, `C97_shut`, `C97_ended`, `C97_told`, `C97_why`, `C97_bounded`, `C97_asked`, `C97_given`, `C97_detached`, `C97_cut`, `C97_moved`, `C97_unclosed`, `C97_forgotten`, `C97_endless`. False for the code in five respects, each with a witness: bytes arriving after the client left close the socket with output waiting (C97_cut); output waiting is never sent after moving to another run loop (C97_moved); the socket of a client that never read is never closed (C97_unclosed); a callback given from inside of the old one is forgotten if that answers no (C97_forgotten); a callback that closes the adapter and always has more is called without end (C97_endless)

**C98 The reader of a flow over a WebSocket is given what the messages of the flow say, in order, once, and then told of the end** (partial). Model: RTWebSocket, VLU. Proofs: `Props/C98_FlowRecv`. Theorems: `C98_codec`, `C98_heard`, `C98_delivered`, `C98_waiting`, `C98_once`, `C98_complete_partial`, `C98_numbers`, `C98_size`, `C98_held`, `C98_one_at_a_time`, `C98_cut`. False for the code in one respect, with a witness: when the connection ends between the arrival of a message and its deferred delivery, the reader is told that the flow is complete and never given the message (C98_cut). C98_complete_partial: until the connection is closed. All else for all histories

**C99 What a flow over a WebSocket puts on the wire is what its writer was told was sent, and the other end has it** (partial). Model: RTWebSocket, VLU. Proofs: `Props/C99_FlowSend`. Theorems: `C99_said`, `C99_settled`, `C99_framed`, `C99_closed`, `C99_both`, `C99_all`, `C99_complete_partial`, `C99_forgotten`, `C99_wild`, `C99_stall`. False for the code in three respects, each with a witness: messages waiting in a flow that its writer closed are never settled when the connection is closed (C99_forgotten); a write to the flow or a close of the connection from the onFinished of an abandoned message changes the list under trimSendBuffer (C99_wild); with a limit on the bytes in flight below the smallest acknowledgement window both ends come to rest with a message unsent (C99_stall). What is said (C99_said), order (C99_settled), the frame (C99_framed) and what the other end has (C99_both, C99_all) hold for all histories; C99_complete_partial while the reader's connection isn't closed. Not proved: that with a sufficient limit everything is sent in the end

**C100 A WebSocket connection with flows leaves nothing unsent that may be sent, and sends what matters more first** (partial). Model: RTWebSocket, VLU. Proofs: `Props/C100_FlowTurns`. Theorems: `C100_rest_partial`, `C100_turn_partial`, `C100_given_up`. Both theorems are for histories in which trimSendBuffer doesn't run by itself later (it asks for no transmission: C100_given_up shows the property false then) and outstandingThresh is raised only while a transmission is asked for, as measureRTT does. That the bytes in flight come down again is up to the other end (see C99_stall).

**C101 Two WebSocket ends with flows don't wait for each other: all that arrives is acknowledged in time** (proved). Model: RTWebSocket, VLU. Proofs: `Props/C101_FlowAcks`. Theorems: `C101_never_more`, `C101_due`, `C101_flush`, `C101_in_flight`, `C101_no_stall`, `C101_all_said`, `C101_carried`, `C101_delivered`, `C101_ended`, `C101_whole`. numbers on the wire are below 2^64 (sayable), as in the code. That both ends come to rest is not claimed; the conditions of C101_no_stall and C101_all_said on the history are those of C100; C101_carried, C101_delivered, C101_ended, C101_all_said and C101_whole are about flows whose number no other flow of their end has had, as the statement says, since numbers are taken again after a flow is closed; that the other end then has one receiving flow with it is proved (met_once)

<!-- results end -->
