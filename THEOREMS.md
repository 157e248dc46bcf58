# Properties and their theorems

Generated by `tools/index.py` from `properties.jsonl` and the comments in `lean/Verif/Props`. Each theorem is followed in its file by examples that meet its hypotheses.

## C01 Event frames round-trip

Serialising an event with Event::into_bytes and reading it back with Event::from_async_read yields an event with the same id, type, reference id, namespace, name and payload bytes, and consumes exactly the bytes of that frame, whatever follows in the stream. Holds exactly for events whose header fits in 65535 bytes and whose namespace, if present, is not the empty string.

- `C01_roundtrip` (`Props/Frame.lean:32`): C01: an event that the format can represent is read back exactly, and exactly its frame is consumed, whatever follows.
- `C01_roundtrip_iff` (`Props/Frame.lean:52`): C01, exactness: the representable events are precisely those that survive the round trip.
- `C01_injective` (`Props/Frame.lean:62`): C01: encoding is injective on representable events.

## C02 Back-to-back frames are read in order for every chunking

If any finite sequence of (well-formed) events is written to one connection back to back, then the receiving side reads exactly this sequence of events, in this order, no matter how the transport splits the byte stream into reads and how often a read has to wait; when the stream ends cleanly after the last frame the read loop stops without producing another event.

- `C02_back_to_back` (`Props/Frame.lean:140`): C02: `es` are written back to back, possibly followed by an unfinished frame `p`. Whatever the chunking and the waits, the receiving loop yields exactly `es` and then stops with EOF (connection closed) or keeps waiting (connection open).
- `C02_applies` (`Props/Frame.lean:181`): The frames of any representable events exist, so C02 applies to any list of them.

## C03 A truncated frame never becomes an event

If the connection ends anywhere inside a frame (any strict prefix of an encoded event), reading it reports an i/o error; it never yields an event and never panics.

- `C03_truncated` (`Props/Frame.lean:203`): C03: a transport that delivers any strict prefix `p` of a frame and is then closed gives an i/o error (and an open one keeps waiting).
- `C03_truncated_layout` (`Props/Frame.lean:217`): C03 for frames of any minor version with unknown header bytes.

## C04 The decoder accepts exactly the documented layout

Event::from_async_read returns an event if and only if its input starts with the documented frame layout (total length, header length, version with major 0, id, type byte 0..3, ref marker 0x00/0xFF with optional id, length-prefixed UTF-8 namespace and name, possibly further header bytes that are ignored, then total_length-header_length payload bytes), and the returned event has exactly these field values.

- `C04_decoder_iff` (`Props/Frame.lean:80`): C04 (reader holding `r` and then EOF): an event is returned iff the input starts with a frame that carries exactly this event.
- `C04_unambiguous` (`Props/Frame.lean:86`): C04: at most one event can be read from given bytes: the layout is unambiguous.
- `C04_decoder_iff_transport` (`Props/Frame.lean:96`): C04 on a transport that delivers its bytes in arbitrary chunks with arbitrary waits.

## C05 Appended header fields are ignored (forward compatibility)

A frame whose header carries additional trailing bytes after the name decodes to the same event as the frame without them, and the payload and the next frame are not disturbed.

- `C05_extra_ignored` (`Props/Frame.lean:235`): C05: a frame with appended header bytes gives the same event, payload and rest as the one without.
- `C05_insert_header_bytes` (`Props/Frame.lean:243`): C05: the frame obtained by inserting `extra` behind the header of the encoding of `e` and adapting both length fields is read as `e`, with the following frame undisturbed.

## C06 Version gate

A frame whose first version byte differs from the implementation's major version is always rejected with UnsupportedVersion carrying the dotted version text of the three bytes, which is different for different versions; frames that differ only in the two minor version bytes are decoded as usual.

- `C06_foreign_major` (`Props/Frame.lean:272`): C06, negative half: a frame whose header starts with version bytes `a b c`, `a ≠ 0`, is refused with the text `a.b.c`. The first hypothesis on the lengths excludes the malformed frames of C08.
- `C06_minor_ignored` (`Props/Frame.lean:309`): C06, positive half: changing only the minor version bytes does not change what is decoded.
- `C06_text_tells_version` (`Props/VersionText.lean:23`): C06: the text of the refusal tells the version: different versions have different texts.

## C07 A frame either decodes to the same event or its event is one of a known kind

into_bytes never fails; the frame it produces decodes to the same event exactly for the events whose header takes at most 65535 bytes and whose namespace, if there is one, is not empty (for events whose payload can be allocated). For every other event the frame silently decodes to another event or not at all; a user would expect an error instead.

- `C07_faithful` (`Props/Frame.lean:340`): C07 holds for the representable events …
- `C07_violated_iff` (`Props/Frame.lean:345`): … and for no others: the encoder reports success and no continuation whatsoever makes the receiver see this event.
- `C07_silent_loss` (`Props/Frame.lean:353`): C07: for an event that does not fit, encoding succeeds and the event is never read back.
- `C07_empty_namespace` (`Props/Frame.lean:359`): C07: an event with an empty namespace arrives without namespace.
- `C07_oversized_name_misread` (`Props/Frame.lean:377`): C07: a name of 65536 bytes (or a multiple) arrives as the empty name, and the payload that arrives is made of the first bytes of the name.

## C08 Exactly which malformed input from a peer panics the reader

Reading a frame sent by an arbitrary peer returns an event or an error and does not panic, except exactly if the header length is greater than the total length (at once with overflow checks; without them when the header has been read completely and without an error, because the payload length wraps around) or the payload length is over isize::MAX. The events before such an input on a connection are handed on first. A user would expect that no input panics.

- `C08_panic_iff` (`Props/Frame.lean:536`): C08, exact characterisation: on any transport, with any chunking, the reader panics iff the delivered bytes are a `PanicInput`.
- `C08_no_panic` (`Props/Frame.lean:547`): C08 restricted to inputs whose header length does not exceed the total length and whose payload is allocatable: no panic. The full property (no panic on any input) is refuted by `C08_violated_debug` and `C08_violated_release`.
- `C08_no_hang` (`Props/Frame.lean:557`): On a closed transport the reader never hangs: it returns an event, an error, or panics.
- `C08_violated_debug` (`Props/Frame.lean:573`): C08 is violated in debug builds by ten bytes: total length 0, header length 1.
- `C08_violated_release` (`Props/Frame.lean:577`): C08 is violated in release builds as well: a complete header (17 bytes) with total length 0.
- `C08_no_panic_applies` (`Props/Frame.lean:582`): The hypothesis of `C08_no_panic` is met by the encoding of every representable event.
- `C08_read_loop` (`Props/Frame.lean:600`): C08, for a connection: the events before such an input are handed on, then the task that reads the connection panics; and only then.

## C09 Error payload round-trip

An ErrorEventData (code, message) serialised as a payload is decoded to the same code and message; for messages under 4 GiB, whatever bytes follow.

- `C09_error_decoder_iff` (`Props/Payload.lean:19`): C09: the decoder accepts exactly the documented layout and returns exactly the encoded values.
- `C09_error_roundtrip` (`Props/Payload.lean:51`): C09: round trip of every code and every message below 4 GiB, whatever follows.
- `C09_error_oversized` (`Props/Payload.lean:59`): C09, exactness of the bound: a longer message never survives.

## C10 Tandem payload round-trip and independence

A TandemPayload of any two payloads that round-trip individually round-trips as a pair; each half is decoded from exactly its own bytes, even if a half consumes its reader to the end, and tandems can be nested to any depth.

- `C10_halves_independent` (`Props/Payload.lean:77`): C10, independence: decoding a tandem that holds `b1` and `b2` decodes each half from exactly its own bytes, whatever the halves leave unread and whatever follows.
- `C10_tandem_roundtrip` (`Props/Payload.lean:95`): C10: a tandem of two values that round-trip round-trips, and exactly the tandem's bytes are consumed.
- `C10_tandem_enc_error` (`Props/Payload.lean:108`): C10: a tandem reports the first failing half.
- `C10_nested_roundtrip` (`Props/Payload.lean:114`): C10, nesting to any depth and of any shape.

## C11 Raw byte payload is the identity

A BytePayload is put on the wire unchanged and decoding consumes the whole payload and yields the same bytes. Built without serde, () is a payload of no bytes.

- `C11_byte_payload` (`Props/Payload.lean:143`): C11: the bytes on the wire are the payload's bytes, and decoding takes all the bytes there are.
- `C11_byte_payload_event` (`Props/Payload.lean:147`): C11 through an event: what the peer's `payload::<BytePayload>()` returns is what was sent.
- `C11_unit_event` (`Props/Payload.lean:157`): C11 for `()`, built without serde: an event emitted with `()` has no data, and arrives as such.

## C12 Serde payloads are decoded with the format they were encoded with

For every build (set of enabled formats), a value serialised with an enabled format decodes to the same value on a peer that has this format enabled, independent of the peer's own default serializer; serialising with a disabled format reports UnavailableFormat and a payload with a format id that is unknown or disabled on the receiver reports UnknownFormat instead of being misdecoded.

- `C12_serde_roundtrip` (`Props/Payload.lean:179`): C12: a value encoded with format `f` on one build is decoded as the same value, with the same format recorded, on every build that has `f` enabled, whatever else is enabled there.
- `C12_default_roundtrip` (`Props/Payload.lean:200`): C12: through the blanket impls (`emit(name, value)` and `event.payload::<T>()`): the receiver's own default serializer is irrelevant.
- `C12_disabled_sender` (`Props/Payload.lean:211`): C12: encoding with a format that is not enabled is refused.
- `C12_disabled_receiver` (`Props/Payload.lean:218`): C12: a payload whose format id is unknown or not enabled here is refused with that id; the format crates are not called (the result does not depend on `impl`).
- `C12_decodes_with_declared_format` (`Props/Payload.lean:242`): C12: if a payload decodes at all, then with the enabled format whose id is its first byte, applied to the rest.

## C13 The default serializer is always usable

In every build in which serde support compiles, the serializer chosen by default is one of the enabled formats, and it is the first enabled one in the order messagepack, bincode, postcard, json.

- `C13_first_available` (`Props/Payload.lean:287`): C13: `first_available` exists (the build compiles) iff some format is enabled, and then it is the enabled format of highest preference.
- `C13_exists` (`Props/Payload.lean:298`): C13: a build with at least one format has a default serializer.
- `C13_default_usable` (`Props/Payload.lean:309`): C13: serialising with the default never reports `UnavailableFormat`.

## C14 Event ids are unique within a process for the first 2^32 events

Any two of the first 2^32 events created in one process have different ids, whatever the clock does and whichever threads create them; two events with the same id are created at least 2^32 events apart. The upper half of an id is the clock reading of its own creation, and creating an event panics exactly if the clock is before 1970. (After 2^32 events ids can repeat; a user would expect that they never do.)

- `C14_repeats_are_apart` (`Props/EventId.lean:63`): C14: whatever the clock does, two calls of one process that return the same id are a multiple of 2^32 calls apart.
- `C14_ids_unique` (`Props/EventId.lean:73`): C14: whatever the clock does (it may jump, stand still, or differ between threads) and however threads interleave, two ids handed out fewer than 2^32 calls apart are different. In particular all the ids among the first 2^32 of a process are. For calls 2^32 or more apart see `C14_repeats_are_apart` and `C14_violated`.
- `C14_nodup` (`Props/EventId.lean:83`): C14 for whole processes: with at most 2^32 events, no id occurs twice.
- `C14_violated` (`Props/EventId.lean:99`): C14 is violated for calls that are 2^32 apart: the counter then spills into the millisecond bits. With the clock at 0 ms for call number 2^32 and at 1 ms for call number 0 (same second modulo 65535, e.g. 18.2 hours later) the ids coincide.
- `C14_violated_execution` (`Props/EventId.lean:127`): C14, the full property refuted on an execution of the process: there is an execution in which two different calls return the same id.
- `C14_clock_before_epoch` (`Props/EventId.lean:137`): C14: the clock before 1970 panics the caller, and nothing else does; then no id is handed out.
- `C14_own_reading` (`Props/Ids.lean:98`): C14, C73: each id is made with a clock reading of its own call: the readings in the ids of a thread are, in order, some of the readings that this thread has taken, each used once.

## C15 Event constructors set type and reference

Event::initiator creates an Initiator without reference id; response and error create events of type Response and Error with the given reference id; Event::end carries the given reference id but is of type Response. (A user would expect type End of the last one.)

- `C15_constructors` (`Props/EventId.lean:158`): C15 for `initiator`, `response` and `error`, every argument. The fourth constructor is `C15_end_violated`.
- `C15_end_violated` (`Props/EventId.lean:168`): C15 is violated by `Event::end`: for no arguments does it build an End event; it builds a Response.

## C16 Emit tags events with their context

An event emitted on the connection context is an Initiator without reference; an event emitted from inside a handler is a Response that references exactly the event being handled; emit_to sets the namespace and emit leaves it empty; name and payload are the given ones; the returned id is the id in the frame written.

- `C16_emit` (`Props/Emit.lean:122`): C16. Polling `ctx.emit(name, payload)` any number of times, in any environment, writes exactly the expected event (no namespace; initiator on a connection context, a response to the handled event in a handler) and returns its id.
- `C16_emit_to` (`Props/Emit.lean:132`): C16 for `emit_to`: the same with the given namespace.
- `C16_emit_raw` (`Props/Emit.lean:143`): C16 for the final answer of a handler (`emit_raw`): type, name and namespace as given, the reference is the context's.

## C17 A payload that fails to serialise sends nothing

If converting the payload fails, emit / await_reply / stream_replies return that error, nothing is written to the connection and no reply listener is registered.

- `C17_failed_payload` (`Props/Emit.lean:601`): C17 (and C48). If converting the payload fails, `emit`, `await_reply` and `stream_replies` return that error at the first poll, have no effect at all (nothing written, no listener registered), and every further poll reports `InvalidState` without any effect.
- `C17_failed_payload_to` (`Props/Emit.lean:608`): C17 for events with a namespace.

## C18 Frames of concurrent emitters never interleave

With any number of tasks emitting concurrently on one connection, the bytes on the wire are always a concatenation of complete frames in the order in which emitters got the connection, followed by at most a prefix of one frame in progress; hence the peer reads exactly the emitted events. An emit that has returned is entirely on the wire before any emit that starts later.

- `C18_no_interleaving` (`Props/Wire.lean:399`): C18. However any number of tasks emit concurrently on one connection, as long as no write is broken off in the middle, the bytes on the wire are complete frames, in the order in which the emitters got the connection, followed by at most a part of the frame being written; every event whose emit has returned is among the complete ones.
- `C18_peer_reads` (`Props/Wire.lean:467`): C18, as seen by the peer: it reads exactly the completely written events, in this order, however the transport cuts the bytes.
- `C18_order` (`Props/Wire.lean:553`): C18, order. Bytes on the wire are never changed. An emit that has returned got the connection before any emit that was started later, so its frame precedes the other one's.
- `C18_lock_released` (`Props/Wire.lean:575`): The connection is never blocked by a finished or dropped emit: whoever holds it is still writing, and if nobody holds it any waiting emit can get it.

## C19 What dropping an emit future does to the connection

Dropping an emit future before it holds the connection is harmless. Dropping one that holds it always releases the connection, and what it leaves on the wire is exactly the part of its frame that was written: events written completely before are still read, and later frames follow the torn one; if only data is missing of the torn frame, the peer gets an event nobody has emitted, with the beginning of the next frame in place of the missing data. (A user would expect that a drop never tears a frame.)

- `C19_drop_harmless` (`Props/Wire.lean:608`): C19. Dropping an emit future (or its failing) before it holds the connection, before it has written anything, or after its whole frame is written, changes nothing on the wire, frees the connection and leaves the other emits alone; by `C18_peer_reads` the peer is not disturbed. For a drop in the middle of a frame see `C19_wire_exact`, `C19_read_before_torn` and `C19_violated`.
- `C19_wire_exact` (`Props/Wire.lean:652`): C19, exactly what is on the wire, whatever is dropped or fails at whatever point: in the order in which the emitters got the connection, the part of its frame that each of them has written; an emit that has returned has written its whole frame; no emitter that got the connection appears twice.
- `C19_drop_releases` (`Props/Wire.lean:669`): C19, dropping an emit future (or its failing) at any point puts nothing on the wire, leaves the others alone and frees the connection.
- `C19_read_before_torn` (`Props/Wire.lean:689`): C19, what a broken off emit cannot harm: the events that were completely written before the first emit that was broken off in the middle of its frame (or is still writing) are the first that the peer reads, in order, whatever comes after them.
- `C19_violated_altered` (`Props/Wire.lean:750`): C19, violated: an emit that is broken off makes the peer receive an event that nobody has emitted. If all but the last `k` bytes of a frame have been written when its emit is dropped, these being part of the event's data, and the next emit is completed, then the peer, after the events before, gets the dropped event with the beginning of the next frame in place of the last `k` bytes of its data, as a good event.
- `C19_violated` (`Props/Wire.lean:798`): C19, violated. Dropping an emit in the middle of its frame corrupts the connection: the next emit returns `Ok`, but the peer, having received all the bytes, does not get its event, in no build profile, and whether or not the connection is closed then.

## C20 Replies are correlated

await_reply and stream_replies only ever yield events whose reference id is the id of the event that was emitted by that very call.

- `C20_correlated` (`Props/Endpoint.lean:43`): **C20.** Everything a request has received (returned by `await_reply` or yielded by the stream) refers to the event emitted by that request, and was received from a peer on a connection sharing its listener map.

## C21 No reply is missed

As long as no id of the peer collides with an own id: while a request is waiting, every event received with a reference to it is delivered to that request and to nothing else, starting from before the request's frame is written, so a reply can never arrive too early to be seen. (Without the proviso: finishing the handler of a peer event whose id equals the id of an own pending request removes that request's listener.)

- `C21_registered_before_write` (`Props/Emit.lean:384`): C20/C21/C50, poll level. However `ctx.emit(name, payload).await_reply()` is polled, the reply listener for the emitted event's id is registered before the first byte is written; only that event is written; every returned reply was taken from that listener's channel and a timeout is returned only if the timer of the requested duration (else the default one) has fired.
- `C21_registered_before_write_to` (`Props/Emit.lean:393`): The same for `emit_to`.
- `C21_no_reply_missed` (`Props/Endpoint.lean:70`): **C21.** Between any two moments at which a request exists, up to a moment at which it is still waiting, every received event that refers to it was delivered to it and to nothing else. The first moment can be the registration of the listener, which is before the request's frame is written, so no reply can be too early.
- `C21_delivered_is_received` (`Props/Endpoint.lean:88`): **C21.** What has been delivered is there to be received: it has been received already or waits in the channel.
- `C21_violated` (`Props/Endpoint.lean:113`): **C21 is violated** if the peer uses an id that equals the id of a pending request: the end of the handler for the peer's event removes the listener of the request (ipc/mod.rs:78), and its reply goes to a handler.

## C22 Reply streams are ordered, complete and terminated by the end event

A reply stream yields the replies to its request in arrival order without loss or duplication, yields the End event as its last item, and yields nothing after it.

- `C22_stream_started` (`Props/Emit.lean:627`): A stream is created only when the event is on the wire, with the emitted event's id, and its listener was registered before: as for `await_reply`.
- `C22_stream_items` (`Props/Emit.lean:695`): C22, poll level. A reply stream that does not run into its timeout yields, poll by poll, exactly what arrives in its channel, up to and including the first End event, and nothing after it.
- `C22_stream_effects` (`Props/Emit.lean:1033`): **C22, C24: what a reply stream does.** A reply stream that does not run into its timeout removes its listener when it gives the End event (or finds its channel closed), and does nothing else.
- `C22_complete` (`Props/Endpoint.lean:125`): **C22.** What a waiting request has received, followed by what waits in its channel, is exactly the sequence of events that refer to it and were received since its registration, in arrival order, nothing lost or doubled.
- `C22_prefix` (`Props/Endpoint.lean:157`): **C22.** Also after its end, a request has received a prefix of the events that refer to it.
- `C22_end_is_last` (`Props/Endpoint.lean:191`): **C22.** Among the items received by a request, an End event can only be the last one.
- `C22_nothing_after_end` (`Props/Endpoint.lean:214`): **C22.** Once a request has received an End event it never receives anything again.
- `C22_ended_by_end` (`Props/Endpoint.lean:236`): **C22.** A stream that ended with an item (and not by a timeout, a drop or an error) ended with an End event; an `await_reply` receives at most one event.

## C23 Handler failure is reported to the awaiting caller

If a handler fails, exactly one Error event with code 500 and the formatted error as message is sent back referencing the handled event, and an await_reply that receives it first returns Err(ErrorEvent) with this code and message; any other reply is returned as Ok.

- `C23_await_error` (`Props/Emit.lean:493`): C23, caller's side. If the first reply that a request receives is an Error event whose payload is a (code, message) pair, `await_reply` returns `Err(ErrorEvent)` with this code and message; for every number of polls before.
- `C23_await_ok` (`Props/Emit.lean:511`): C23, caller's side. Any other first reply is returned as it is.

## C24 Exactly which ended requests leave a listener behind

As long as ids are not reused, a reply listener is registered exactly for the requests that have been started and have not got their (last) reply: a request that got it leaves nothing behind, and one that ends otherwise (timeout, write error, drop) leaves its listener for ever, and a late reply to it is passed to the global handler of its name even if it is namespaced or an End event. (A user would expect that nothing is left in any case.)

- `C24_replied_leaves_nothing` (`Props/Endpoint.lean:267`): **C24.** A request that ended with its (last) reply leaves no listener, in no map.
- `C24_listener_iff` (`Props/Endpoint.lean:273`): **C24, exactly**: the listener of a request is registered from its registration until its last reply has been received, and never else: of all ways in which a request can end only that one removes it.
- `C24_leak` (`Props/Endpoint.lean:279`): **C24 is violated, always**: every request that timed out, failed to be written or was dropped still has its listener registered, at every later moment.
- `C24_late_reply` (`Props/Endpoint.lean:288`): **C24 is violated**: a late reply to such a request is given to the *global* handler of its name, whatever its namespace and type.
- `C24_violated` (`Props/Endpoint.lean:304`): The hypotheses of `C24_leak` and `C24_late_reply` can be met, and the effect seen: a late End event for namespace "ns" runs the global handler 1 of "ping".

## C25 Exactly when a slow reply stream blocks other traffic

The receive loop of a connection that has taken a reply for a live request goes on if and only if fewer than 8 replies to that request are unread; up to 8 unread replies never block, the 9th blocks all other traffic of the connection until one is consumed or the request ends. (A user would expect that it never blocks.)

- `C25_capacity` (`Props/Endpoint.lean:313`): **C25.** At most 8 replies wait unread in a channel.
- `C25_goes_on` (`Props/Endpoint.lean:318`): **C25.** A receive loop that holds a reply can go on unless the request is still alive with 8 unread replies.
- `C25_goes_on_iff` (`Props/Endpoint.lean:333`): **C25, exactly**: a receive loop that holds a reply can go on if and only if the request has ended or has less than 8 unread replies.
- `C25_takes` (`Props/Endpoint.lean:348`): **C25.** A receive loop that is reading takes the next event, whatever it is.
- `C25_blocked` (`Props/Endpoint.lean:363`): **C25 is violated.** If a loop holds a reply for a request with 8 unread replies, then nothing received on that connection is dealt with until that request receives one, times out or is dropped, or the connection is stopped - whatever else happens.
- `C25_violated` (`Props/Endpoint.lean:400`): `C25_blocked` is met: 8 unread replies, the ninth held by the loop, and behind it an event "ping" for which a handler exists.

## C26 Every handled event is answered exactly once

For every received event that is passed to a handler that returns, exactly one final event (End if the handler succeeded, with the handler's response bytes, Error otherwise) referencing that event is emitted when the handler has finished, none before, and everything emitted while the handler ran comes before it on the wire; events without a registered handler are answered by an empty End with no payload. If a handler panics its event is never answered.

- `C26_no_callback` (`Props/Dispatch.lean:15`): **C26.** An event for which no callback is registered is answered by an End event without payload, and nothing else is emitted for it.
- `C26_emitted_refers` (`Props/Dispatch.lean:64`): **C16/C26.** Every event that an endpoint emits is an Initiator without reference (emitted on the connection), or a Response (emitted with the context of a handler), or an End or Error event (an answer); the latter three refer to exactly the event that is or was handled, and go out on the connection on which that was received.
- `C26_answered_unless_write_fails` (`Props/Dispatch.lean:97`): **C26: nothing else prevents the answer.** If writing the answer of a task never failed, then a task that has got past its handler has answered its event, exactly once.
- `C26_can_answer` (`Props/Dispatch.lean:142`): **C26: the answer is never blocked.** Whatever a running handler returns, in whatever state the endpoint is: its answer can be written at once.
- `C26_violated_panic` (`Props/Dispatch.lean:165`): **C26 is violated by panics**: an event whose callback panics is never answered, however long one waits.
- `C26_violated_can_panic` (`Props/Dispatch.lean:173`): **C26 is violated by panics**, and nothing in the endpoint prevents them: in whatever state, a callback that is running may panic (except for the one for errors that bromine brings along). The panic itself changes nothing else: no connection, no other task, no request.
- `C26_answered_once` (`Props/Endpoint.lean:411`): **C26, C23.** A handled event has been answered exactly once when its handler has finished and the answer could be written: by the End event with the handler's response, or by the Error event with code 500 and the formatted error; on its own connection.
- `C26_not_before` (`Props/Endpoint.lean:426`): **C26.** Before its handler has returned, and if the handler panicked or the answer could not be written, an event has no answer.
- `C26_answer_is_after` (`Props/Endpoint.lean:453`): **C26.** What was emitted on the connection while the handler was running (by it or by others) comes before its answer.

## C27 Routing of received events

A received event that is no reply to a waiting request is passed to the handler registered for its name in its namespace if the namespace is registered, and otherwise to the global handler of that name. SPECIFICATON.md says events for unregistered namespaces are ignored; the code violates that and passes them to the global handlers.

- `C27_routing` (`Props/Dispatch.lean:197`): **C27.** A received event that refers to no request of its connection's listener map, and is not an End event, is given to the callback registered for its name: in its namespace if that is registered, otherwise globally.
- `C27_callback` (`Props/Dispatch.lean:233`): **C27.** The callback run for a received event is the registered one, except that replies to requests that have ended without having been completed are always given to the global handlers.
- `C27_violated_spec` (`Props/Dispatch.lean:246`): **C27: SPECIFICATION.md is violated.** An event for a namespace that is not registered is not ignored but given to the global handler of its name.

## C28 Each received event is dispatched exactly once in arrival order

Every event read from a connection is processed exactly once, in arrival order: it is either delivered to the waiting request it references, or handed to exactly one handler, or (an End event nobody waits for) discarded; replies to waiting requests never reach handlers.

- `C28_in_order` (`Props/Dispatch.lean:259`): **C28.** What has arrived on a connection is, in this order: the events that have been dealt with, the one event that the receive loop holds (while it waits for room in a channel), and the events not yet taken.
- `C28_exactly_once` (`Props/Dispatch.lean:264`): **C28.** Dealing with an event means exactly one of: delivered to one request, given to one handler task, or discarded if it is an End event; and conversely every handler task was made for exactly one received event.
- `C28_reply_not_handled` (`Props/Dispatch.lean:305`): **C28.** A reply to a request that is waiting never reaches a handler.

## C29 End events are not exchanged endlessly

Two peers never exchange End events endlessly. As long as ids are not reused, an End event is dropped without any effect exactly if every own request that it refers to has got its last reply; one that refers to a request that has given up, or that is just returning, is handed to the global handler and answered. (A user would expect that End events are never answered.)

- `C29_discarded` (`Props/Dispatch.lean:318`): **C29.** An End event that refers to no request is dropped: no task, no event, no other effect.
- `C29_end_unanswered` (`Props/Dispatch.lean:344`): **C29.** An End event is only ever given to a handler (and so answered) if it refers to a request that has ended.
- `C29_violated` (`Props/Dispatch.lean:356`): **C29 is violated**: the End event that answers a timed-out request is itself answered by an End event.
- `C29_discarded_iff` (`Props/Dispatch.lean:365`): **C29, exactly**: as long as ids are not reused, an End event that is read is discarded if and only if every request of this side that it refers to has got its last reply. In all other cases it is offered to the request.
- `C29_violated_race` (`Props/Dispatch.lean:407`): **C29 is violated by a race, without any timeout**: the handler of the peer emits a response to an `await_reply` and then ends. If the End event is read while `await_reply` is about to return with the response, the End event is given to the global handler and answered by an End event.
- `C29_no_ping_pong` (`Props/System.lean:255`): **C29.** Between two endpoints with different ids, an End event is only ever handled (rather than received by a request, or dropped) if the event it answers is an Initiator or a Response. So an answer to an End or Error event is never answered again.

## C30 Handler registration semantics

For any sequence of on() calls an event name is served by the callback registered last for it; registering for other names does not affect it; every builder starts with a default callback for "error" that can be replaced; adding a namespace with an already registered name replaces all its handlers.

- `C30_last_registration` (`Props/Builder.lean:35`): C30: a handler built by any sequence of `on` calls serves a name with the callback registered last for that name, and with nothing if there was none.
- `C30_global_handlers` (`Props/Builder.lean:102`): C30: after any sequence of builder calls, a global event name is served by the last callback registered for it; without any, "error" is served by the default callback and every other name by none.
- `C30_namespaces` (`Props/Builder.lean:130`): C30: after any sequence of builder calls, the handlers of a namespace are those of the namespace added last under that name, none of the earlier ones; a name never added is not registered.
- `C30_settings` (`Props/Builder.lean:160`): C30: every other setting is the one given last, or its default (60 s, the first available format, the default options).

## C31 Builders validate before connecting

build_server, build_client and build_pooled_client fail with a BuildError without touching the network if no address was given; a pool of size 0 is refused; a successful pooled build makes exactly pool_size connections and acquire never panics; if a connection attempt fails the error is returned.

- `C31_missing_address` (`Props/Builder.lean:184`): C31: without an address, every build fails with a `BuildError` and does nothing on the network.
- `C31_single_connection` (`Props/Builder.lean:199`): C31: with an address, exactly one connection (or bind) to the address given last, with the options given last, and its outcome is the result.
- `C31_pool_zero` (`Props/Builder.lean:214`): C31: a pool of size zero is refused, whatever the configuration, without touching the network.
- `C31_pool_success` (`Props/Builder.lean:305`): C31: a pooled build that succeeds made exactly `n` connections to the given address and the pool consists of them, in order.
- `C31_pool_failure` (`Props/Builder.lean:337`): C31: if the `m`-th connection attempt is the first to fail, its error is the result and no further attempt is made.
- `C31_acquire_never_panics` (`Props/Pool.lean:231`): **C31.** On a pool with at least one connection (the builder refuses others, `C31_pool_zero`) `acquire` never panics, whatever other threads do.
- `C31_empty_pool_panics` (`Props/Pool.lean:238`): The check in the builder is needed: without connections `acquire` would panic.

## C32 Pool usage counts are exact

At every moment, as long as a pool handle is alive, the usage count of each pooled connection equals the number of live guards for it beyond the first, through any sequence of acquire, guard clone, guard drop, pool clone and pool drop by any threads; it never underflows while some pool handle is alive.

- `C32_exact` (`Props/Pool.lean:23`): **C32.** At every moment (also in the middle of an `acquire`, `clone` or `drop` of any threads) the usage count of a pooled connection is the number of its live guards beyond the first, as long as there is a live guard for it; the number of guards is limited by the size of `usize`.
- `C32_exact_while_alive` (`Props/Pool.lean:36`): **C32.** In particular it is exact as long as a pool handle is alive.
- `C32_single_handle` (`Props/Pool.lean:42`): **C32.** With a single pool handle the usage count is the number of guards that have been acquired or cloned and not yet dropped.
- `C32_no_underflow` (`Props/Pool.lean:50`): **C32.** While a pool handle is alive, dropping a guard never makes the count underflow: it goes down by one.
- `C32_reads_exact` (`Props/Pool.lean:64`): **C32.** A count is only ever read while a pool handle is alive, so every count that `acquire` compares is exact.
- `C32_wraps_at_the_end` (`Props/Pool.lean:77`): **C32.** When the last guard of a connection is gone (so also all pool handles) the count has wrapped around; by `C32_reads_exact` nobody can read it any more.
- `C32_drop_completes` (`Props/Pool.lean:134`): **C32.** Dropping a pool handle that no `acquire` and no `clone` is using just now gives back exactly one unit of every connection: it runs through all of them, and leaves no guard of the handle behind.
- `C32_clone_completes` (`Props/Pool.lean:198`): **C32.** Cloning a pool handle uses every connection once more, and gives a second handle that can be used.

## C33 Pool acquires the least used connection and stays balanced

acquire returns a connection whose usage count is minimal (the first such one); any number of sequential acquires without releases spreads guards so that usage counts never differ by more than one.

- `C33_least_of_loaded` (`Props/Pool.lean:245`): **C33.** Whatever happens in other threads, `acquire` returns the first of the connections whose count, as loaded by this call, was least.
- `C33_first_least` (`Props/Pool.lean:274`): **C33.** An `acquire` that is not disturbed succeeds and returns the first of the connections with the least number of live guards; this number then goes up by one, and nothing else changes.
- `C33_balanced` (`Props/Pool.lean:330`): **C33.** From a state in which the usage counts differ by at most one, any number of acquires without releases keeps it so.
- `C33_round_robin` (`Props/Pool.lean:353`): **C33.** `m` acquires on a fresh pool go round robin: call number `k` gets connection `k mod n`.
- `C33_race` (`Props/Pool.lean:409`): **C33, concurrent calls.** Loading the counters and counting the new guard is not one step: two concurrent acquires can both get the first connection although the second one is unused.

## C34 Stopping a client

Context::stop of a client succeeds any number of times on any clones; once the abort that the first call asks for has been carried out no further received event is dispatched, and handlers that are already running are not aborted. (stop only asks: an event can still be dispatched between the return of stop and the abort; and stop on a server's contexts does nothing.)

- `C34_stop_succeeds` (`Props/Dispatch.lean:420`): **C34.** `stop` always succeeds; it does not touch tasks, requests or what has been emitted; on a context of a server it does nothing at all.
- `C34_abort_takes_effect` (`Props/Dispatch.lean:428`): **C34.** After `stop` the receive loop can always be ended (the runtime then does so); this leaves running handlers, requests and everything emitted as they are.
- `C34_nothing_dispatched_after` (`Props/Dispatch.lean:442`): **C34.** Once the receive loop of a connection has ended, no event received on it is dispatched any more, whatever happens, and the loop does not come back.
- `C34_only_stop_ends` (`Props/Dispatch.lean:456`): **C34: nothing else ends a receive loop.** A receive loop ends only after `stop` on its connection, or because reading failed; in the latter case everything that had arrived before has been dispatched.
- `C34_only_stop_stops` (`Props/Dispatch.lean:500`): **C34: only `stop` sets the mark that stops a connection**, and only that of its own connection.
- `C34_violated` (`Props/Dispatch.lean:513`): **C34: stopping is not immediate.** Between the return of `stop` and the end of the receive loop another event can be dispatched.

## C35 Exactly which failures end a server

Until the first error every client that connects is served, in order, once. A plain server that has started ends exactly if accepting a connection fails; an encrypted one also if the key exchange of one client fails, and only then; after that nobody is served. (A user would expect that a failed connection does not end the server.)

- `C35_served_in_order` (`Props/Server.lean:96`): C35: until the first error, every client that has connected is served, is the one in the key exchange, or waits to be accepted, in the order in which they connected, each exactly once. After the first error nobody is served any more, see `C35_violated_accept` and `C35_violated_stranger`.
- `C35_violated_accept` (`Props/Server.lean:102`): C35 does not hold: the first error of `accept` ends the server, with `Ok`; from then on nobody is served, whatever happens.
- `C35_violated_stranger` (`Props/Server.lean:109`): C35 does not hold: a stranger who connects to an encrypted server and sends 32 bytes that are not a trusted key ends the server for everyone.
- `C35_plain_ends_iff` (`Props/Server.lean:427`): C35, exactly when a plain server ends: with the first error of `accept`, and for no other reason (a bind that fails does not start it, C56).
- `C35_encrypted_ends_only` (`Props/Server.lean:464`): C35, why an encrypted server has ended: an error of `accept`, or the key exchange with a client failed: the client presented a key that is not trusted, or reading from it or writing to it failed.
- `C35_exchange_decides` (`Props/Server.lean:480`): C35, C52: a failed key exchange ends the server, always; as long as an exchange goes on nobody else is accepted; when it has completed, the next client is.

## C36 Server connections are isolated

Replies are matched per connection: an event arriving on one connection can never be delivered to a request emitted on another connection of the same server.

- `C36_isolated` (`Props/Dispatch.lean:526`): **C36.** If every connection has its own listener map (as on a server), a request only receives events that came in on the connection on which it was emitted.
- `C36_pool_shares` (`Props/Dispatch.lean:546`): On the contrary the connections of a pooled client share their listeners: a reply received on connection 1 is delivered to a request emitted on connection 0.

## C37 Nonces are never reused in one direction

Under one session key, two different packages sent by the same side are never encrypted with the same nonce, for the first 2^64 packages, whatever tasks send them.

- `C37_nonces` (`Props/Crypt.lean:136`): C37. Whatever polls a write half gets from whatever tasks, and however the transport answers: its encryptions are all done under the session key, encryption number `i` (from 0) uses the nonce with number `i`, and the numbers of two encryptions with the same nonce differ by a multiple of 2^64.
- `C37_distinct` (`Props/Crypt.lean:149`): C37: among the first 2^64 encryptions no nonce occurs twice.

## C38 Exactly which messages share key and nonce

Two messages that the two sides of a session send under the session key are encrypted with the same nonce if and only if they have the same number (modulo 2^64) in their directions; two messages of one direction share it only if their numbers differ by a multiple of 2^64; the first message of every session between two static keys is encrypted under the same key and nonce 0. (A user would expect that no pair is ever used twice.)

- `C38_violated` (`Props/Crypt.lean:169`): C38 does not hold: in every session, with every key, the first packages that the two sides send are encrypted under the same key and the same nonce, whatever they say. `s` is a side right after the key exchange.
- `C38_directions_iff` (`Props/Crypt.lean:207`): C38, exactly which messages of the two directions of a session share key and nonce: number `i` of the one and number `j` of the other (from 0) do if and only if `i` and `j` are equal (modulo 2^64), whatever the two sides do and the transport answers. Within one direction see `C37_nonces`.
- `C38_violated_sessions` (`Props/Handshake.lean:527`): C38 does not hold across sessions: in any two sessions between the same static keys the server encrypts its first message, the session key, under the same key and the same nonce.

## C39 Encrypted package framing round-trips

An encrypted package written to the transport is read back unchanged with nothing else consumed if and only if its ciphertext is shorter than 2^32 bytes. Plaintexts are cut to 2^32 - 1 bytes, 16 too many: an event of 2^32 - 16 bytes or more on the wire is reported as sent and makes the peer's reader fail.

- `C39_roundtrip` (`Props/Crypt.lean:239`): C39: a package is read back unchanged, nothing of what follows is consumed, however the transport cuts the bytes, if the ciphertext is shorter than 2^32 bytes.
- `C39_prefix_iff` (`Props/Crypt.lean:275`): C39: the length prefix of a package is right exactly for ciphertexts shorter than 2^32 bytes.
- `C39_cut` (`Props/CryptAttack.lean:30`): **C39, where a write is cut.** A write on an idle write half with 1024 bytes or more to send starts one package, whose plaintext is the first 2^32 - 1 bytes (all of them, if there are no more); the rest stays in the buffer. What goes to the transport is that package from its first byte on, all of it if the write is ready.
- `C39_cut_flush` (`Props/CryptAttack.lean:53`): The same for a flush.
- `C39_violated` (`Props/CryptAttack.lean:83`): C39 does not hold at its boundary, with every cipher: an event whose frame has 2^32 - 16 bytes or more is sent in a package with a wrong length (the code cuts at 2^32 - 1 bytes of plaintext, and forgets the tag). The emit returns `Ok`, but the peer does not get the event; its reading of the connection ends with an error.

## C40 The encrypted layer is transparent

Any sequence of events written and flushed through an encrypted connection is read by the peer as the same sequence of events, for every event size below 4 GiB, every partial write, every chunking and every pending pattern of the transport, as long as emits are not dropped midway.

- `C40_wire` (`Props/CryptEvents.lean:76`): C40, the wire. Any number of tasks emit events on one encrypted connection, in any schedule, with any partial writes, pending answers and sizes below 4 GiB; as long as no emit that holds the connection is dropped or fails, what is on the wire is the sequence of the packages of the events in the order in which their emits got the connection, the last one possibly not complete. If nobody holds the connection, all are complete. Every emit that has returned `Ok` is among them.
- `C40_peer_reads` (`Props/CryptEvents.lean:121`): C40, the peer. Whatever the schedule of the emitters and however the transport cuts the bytes: the peer, with the same session key, reads exactly the events in the order in which their emits got the connection (without the last one, if its package is not complete yet), and then waits or sees the end of the stream.
- `C40_fails_only_with_transport` (`Props/CryptEvents.lean:165`): C40: an emit ends in another way than `Ok` only if it is dropped or the transport reports an error (or accepts nothing). In particular it does not panic.
- `C40_progress` (`Props/CryptEvents.lean:195`): C40: an emit that holds the connection returns `Ok` as soon as the transport takes the bytes; it never waits for anything else.

## C41 Key exchange agreement

If server and client complete the key exchange over an undisturbed connection, both use the same session key with all counters zero, for every pair of static secrets; what is then unread on a side is exactly what the other side sent after it had completed the exchange.

- `C41_agreement` (`Props/Handshake.lean:23`): C41. Over an undisturbed connection, for all secrets, in every schedule, with every division of reads and writes, also if the transport fails or a side is closed: when both sides have completed the exchange, they start a session with the same key, the one that the server generated, with all counters zero; what is left unread on a side is exactly what the other side has sent after it had completed the exchange (which the server may do before the client has).
- `C41_completes` (`Props/Handshake.lean:166`): C41: if the sides trust each other and the transport works, no side fails or panics; and at every moment of every schedule the exchange can be completed by three more polls that find a transport that takes what it is given and has delivered what was sent.

## C42 Unknown peers are refused

Unless allow_unknown is set, a key exchange with a peer whose public key is not listed fails with UnknownPeer, before the server has sent anything and before either side has derived or sent a secret; with a listed key or allow_unknown this check passes; another encoding of a listed point counts as listed. With the default options nobody is trusted.

- `C42_server_refuses` (`Props/Handshake.lean:232`): C42, the server. Whatever bytes arrive, in whatever pieces: if the first 32 of them are not a trusted key, the server sends nothing at all and the exchange never succeeds; the result, if there is one, is `UnknownPeer` with that key (or the end of the stream). A poll that gets the key gives that result.
- `C42_client_refuses` (`Props/Handshake.lean:289`): C42, the client: if the first 32 bytes that arrive are not a trusted key, the client does not send anything but (part of) its own public key, and the exchange never succeeds; the error is `UnknownPeer` with that key, or an i/o error.
- `C42_trusted_pass` (`Props/Handshake.lean:316`): C42: a trusted key is never refused, on either side.
- `C42_encodings` (`Props/Handshake.lean:339`): C42: the check is about the point, not its bytes: another encoding of a listed key is as good as the listed one, and leads to the same shared secret.
- `C42_default_options` (`Props/Handshake.lean:355`): C42: with the default options nobody is trusted: a server with them refuses every client, and never sends anything; a client with them never completes.
- `C42_served_are_trusted` (`Props/Server.lean:402`): C42, the server as a whole: every client that an encrypted server serves has gone through the key exchange, in which it has presented a trusted key, and it is served with the session key that the server generated for this exchange.

## C43 What tampering, replay and reordering can achieve

Whatever an attacker who does not hold the key does to the packages of one direction (drop, duplicate, reorder, modify), the receiver delivers a prefix of what was sent and then an error or waits. If the attacker also uses the packages of the other direction, the receiver still delivers at each place nothing but the event that the peer or the receiver itself has sent at that place. (A user would expect that reflected packages are refused.)

- `C43_prefix` (`Props/CryptAttack.lean:172`): C43. The bytes that reach the receiver are chosen by somebody else, who can only produce packages of the sender: every piece `c` of the bytes that the session key deciphers under the nonce with number `i` is what the sender has sent as package number `i`. Then the receiver delivers the sender's events from the first on, in order, without repetition or gap, up to some point; there it ends with an error, or waits for more bytes.
- `C43_positions` (`Props/CryptAttack.lean:238`): C43 with both directions. The attacker may also use the packages of the other direction: every piece of the bytes that the session key deciphers under the nonce with number `i` is what the peer has sent as package number `i`, or what this side has itself sent as its package number `i`. Then the receiver still delivers at place `i` nothing but one of these two: no event is delivered at another place than its own, dropped from the middle, altered or repeated; then it ends with an error, or waits.
- `C43_violated_reflection` (`Props/CryptAttack.lean:304`): C43 does not hold for packages of the other direction, with every cipher: whatever a side sends, if the attacker sends it back, this side takes it for events of its peer. `side` is one side after the key exchange.

## C44 Exactly when a read of an encrypted connection misses its wake-up

A poll_read returns Pending without a registered wake-up if and only if it has just emptied a package without filling the caller's buffer; then a read that wants more than the plaintext of one package never returns. The library itself never reads like that on its own traffic: its receive loop is always woken. (A user would expect that every pending read is woken.)

- `C44_violated` (`Props/CryptPoll.lean:38`): C44 does not hold, with every cipher: if the caller's buffer is larger than the plaintext of the next package, then a read that wants to fill it (`read_exact`, or `read_u64` etc. if `int`) never returns, even if the rest of the data, or the end of the stream, is already there.
- `C44_woken` (`Props/CryptPoll.lean:62`): C44: a poll that returns `Pending` without a wake-up has just completed a package, has taken all of its plaintext, and it was less than wanted. So reads are woken as long as no read crosses the end of a package. For reads that do see `C44_lost_wakeup_iff` and `C44_violated`.
- `C44_lost_wakeup_iff` (`Props/CryptPoll.lean:104`): C44, exactly when the wake-up is missing: the poll has not filled the buffer, and it is not in the middle of a package. (In the middle of one, the transport wakes the task.)
- `C44_own_traffic` (`Props/CryptPoll.lean:149`): C44 inside the library: if the bytes of the emitters of an encrypted connection (see C40) have arrived and the stream has ended, the receive loop has returned; it is not waiting for a wake-up that does not come.

## C45 What dropped writes do to an encrypted connection

Whatever emits on an encrypted connection are dropped, at whatever points, the stream of packages is never torn: the peer reads only emitted events, in the order in which the emits got the connection, each at most once and unaltered. Nothing is lost and nothing panics as long as only emits that do not hold the connection are dropped; after one that does, a later emit can return Ok although its event is not sent (or not yet), or panic. (A user would expect that no later emit is affected.)

- `C45_wire_intact` (`Props/CryptDrop.lean:154`): C45, the wire. Any number of tasks emit events on one encrypted connection, and any of the emits are dropped, at any point (or panic, because of an earlier drop). The wire is never torn: what is on it (together with the rest of the current package, which the write half keeps) is a sequence of whole packages, each holding the whole frames of one or more of the events, in the order in which their emits got the connection, no event twice; the buffer holds whole frames too.
- `C45_peer_reads` (`Props/CryptDrop.lean:166`): C45, the peer. Whatever emits are dropped, at whatever point: the peer reads only events that were emitted, in the order in which their emits got the connection, each at most once, and then waits or sees the end of the stream; it never sees a broken frame or package. (Events can be missing: `C45_violated_lost`.)
- `C45_peer_reads_applies` (`Props/CryptDrop.lean:190`): Such a run: the first emit is dropped while it holds the connection, the event of the second stays in the buffer and goes out in one package with that of the third.
- `C45_drop_waiting` (`Props/CryptPoll.lean:402`): C45: dropping an emit that is still waiting for the connection leaves the connection as it is; and, by C40, no write is lost and nothing panics as long as only such emits are dropped. For an emit that holds the connection see `C45_wire_intact`, `C45_peer_reads`.
- `C45_violated_lost` (`Props/CryptPoll.lean:414`): C45 does not hold, with every cipher: the emit of `e1` (1024 bytes or more) is dropped while the transport is pending. The next emit, of any event `e2`, returns `Ok` when the rest of the package of `e1` has been written; `e2` itself is neither sent nor buffered.
- `C45_violated_dropped_flush` (`Props/CryptPoll.lean:457`): C45 does not hold, with every cipher: the emit of `e1` (less than 1024 bytes) is dropped while the transport is pending. The next emit, of an event with less than 1024 bytes, returns `Ok` although its event stays in the buffer; if the event is longer, the write panics.

## C46 End-to-end request/response

Between a client and a server connected by a reliable transport, if await_reply returns an event then it is the first event that the server's handler for that request emitted (or its final response if it emitted none), with its payload; and the items of a reply stream are a prefix of the events emitted by that handler followed by its End event - for any number of concurrent requests.

- `C46_end_to_end` (`Props/System.lean:111`): **C46.** Everything a request has received was emitted by the one handler task of the other side that handled the event of this very request, and it is a prefix of what that task emitted: for any number of concurrent requests, connections and handlers.
- `C46_await_reply` (`Props/System.lean:194`): **C46 for `await_reply`.** The reply is the first event that the handler of the request emitted, or its final answer if it emitted none.
- `C46_final_result` (`Props/System.lean:206`): **C46: the End or Error event that a request receives is the answer made from the result of its handler.**

## C47 Error events do not loop for ever

If one of two peers uses the default error handler, an error event triggers at most one further exchange and no endless error ping-pong can arise.

- `C47_default_error_handler` (`Props/Dispatch.lean:556`): **C47.** An event with a well-formed error payload handled by the default error handler is answered by an End event without payload and nothing else.
- `C47_error_exchange_ends` (`Props/System.lean:292`): **C47.** If the first endpoint handles an error event with its default error handler, then all that it emits for it is one End event without payload, and no handler of the other side ever handles that End event: the exchange is over.
- `C47_condition_needed` (`Props/System.lean:428`): **C47, without a default error handler.** If both sides have an error handler of their own that fails, one emitted event leads to any number of error events, although nobody emits anything any more: the library itself does not stop the exchange. The condition of C47 is needed.

## C48 Futures polled after completion

Once a poll of an emit, await_reply or stream_replies future has returned something, further polls have no effect at all: they report InvalidState if the future failed to start, else they panic; an emit that has been polled cannot be turned into a request any more. A reply stream that has ended keeps returning None; a poll of a reply stream panics if and only if an earlier poll has reported a timeout. (A user would expect the stream not to panic.)

- `C48_ended_stream` (`Props/Emit.lean:703`): C48. A reply stream that has given its End event (or whose channel was closed) keeps returning `None` for ever, without any effect, whatever happens.
- `C48_violated_after_timeout` (`Props/Emit.lean:734`): C48, violated. When a reply stream has reported a timeout, every further poll panics.
- `C48_emit_again` (`Props/EmitAgain.lean:159`): C48. An `emit` future in any state (polled before however often, in whatever environments): once a poll has returned something, an error included, or panicked, no further poll has any effect: nothing is written, and no id or reply is made up.
- `C48_await_reply_again` (`Props/EmitAgain.lean:166`): C48 for `await_reply`.
- `C48_stream_replies_again` (`Props/EmitAgain.lean:173`): C48 for `stream_replies`.
- `C48_polled_emit_reused` (`Props/EmitAgain.lean:209`): C48. An emit future that has been polled (once or more, with whatever result) cannot be turned into a request any more: `await_reply` and `stream_replies` on it report `InvalidState` at every poll; no listener is registered, nothing is written.
- `C48_stream_panics_iff` (`Props/EmitAgain.lean:263`): C48, reply streams, exactly when polling panics: after any sequence of polls, in any environments, the next poll panics if and only if an earlier poll has reported a timeout. (The channel itself does not panic.)

## C49 Exactly which malformed payloads panic the payload decoder

Decoding an error payload sent by an arbitrary peer returns a value or an error and never panics. Decoding a tandem payload panics exactly if one of the two lengths is above isize::MAX or the decoder of a half panics on its bytes. (A user would expect that no payload panics.)

- `C49_error_payload_safe` (`Props/Payload.lean:319`): C49: decoding an error payload never panics, whatever the bytes.
- `C49_tandem_panics` (`Props/Payload.lean:329`): C49, violated for tandem payloads: the receiver of eight bytes 0xFF panics (capacity overflow).
- `C49_tandem_panic_iff` (`Props/Payload.lean:366`): C49: the decoding of a tandem panics exactly if one of its two length fields exceeds `isize::MAX` (and the bytes before it are there), or one of its halves panics on the bytes of that half.

## C50 A timeout is reported only when the timer of that request fired

await_reply returns Timeout, and a reply stream yields Timeout, only if the timeout that was configured (with_timeout or the context's default) has elapsed since waiting began; a stream's items do not make the timeout of a later item due earlier.

- `C50_timeout_only_when_due` (`Props/Emit.lean:420`): C50. A request never reports a timeout unless its own timer has fired (or the transport itself reported that error).
- `C50_await_reply_steps` (`Props/Emit.lean:902`): **C20, C21, C24, C50: `await_reply`, poll by poll.** However it is polled: the first poll registers the listener before anything else; after that every poll is one of `RequestStep`. In particular the listener is removed exactly in the poll that returns a reply (not after a timeout or a failed write), and a request whose event is written does not stay pending once its timer (the given timeout, else the default) has fired.
- `C50_await_reply_steps_to` (`Props/Emit.lean:912`): The same for `emit_to`.
- `C50_stream_replies_steps` (`Props/Emit.lean:1005`): **C21, C50: `stream_replies`, poll by poll.** The listener is registered first, then the event is written; as soon as it is, the stream for its id is returned, with the given timeout (else the default one).
- `C50_stream_replies_steps_to` (`Props/Emit.lean:1015`): C50: the same for events with a namespace.
- `C50_stream_times_out` (`Props/Emit.lean:1067`): **C50: a reply stream times out.** A stream that has not ended reports a timeout in the poll in which its timer has fired and no reply is there. Its listener stays registered.

## C51 A request ends by a reply, its timeout, or being dropped

As long as ids do not repeat, the reply channel of a waiting request is never closed from the library's side before the end of its replies, so a request never ends with a receive error; after the connection is lost, waiting requests end only by their timeout or by being dropped.

- `C51_never_closed` (`Props/Dispatch.lean:585`): **C51.** As long as ids are not reused, no request ends because its channel was closed: `await_reply` never returns `SendError` and a reply stream never ends with `None` before its End event.
- `C51_lost_connection` (`Props/Dispatch.lean:591`): **C51.** After the connection is lost (and, for pooled clients, all connections of the pool), a request without an unread reply gets none any more: it waits until its timeout fires or it is dropped.

## C52 When a client that does not complete its connection set-up blocks other clients

On a plain server, however a client behaves after it has connected, all other clients that connect can be accepted and served. On an encrypted server nobody else is accepted while the key exchange of one client is going on, for as long as that client stays silent. (A user would expect that one silent client does not block the others.)

- `C52_plain` (`Props/Server.lean:130`): C52 for plain connections: whoever waits can be served, by as many `accept`s as there are clients waiting, whatever the served clients do or do not do.
- `C52_violated` (`Props/Server.lean:184`): C52 does not hold for encrypted connections: after a client that connects and then stays silent (sends nothing, does not close), nobody is served, whoever connects and however long the server runs.

## C53 What an encrypted connection does after an error and at shutdown

Once a read of an encrypted connection has failed, every further read (poll_read, read_exact, read_u32 etc.) panics. A shutdown does not complete by itself: the poll that finishes its flush returns Pending without a wake-up, and every later flush panics. Polled again nevertheless, it does what the transport's shutdown does, and after its end a further poll panics. Writes after the flush of a shutdown are still accepted while less than 1024 bytes are buffered, and are never sent. (A user would expect errors, and a shutdown that completes.)

- `C53_violated_read_again` (`Props/CryptPoll.lean:161`): C53 does not hold: once reading has failed, with whatever error, every further read panics.
- `C53_violated_read_exact` (`Props/CryptPoll.lean:194`): The same for `read_exact` and `read_u32` etc. of tokio, and so for everything that reads from the connection: if a poll of the read half has failed, they panic.
- `C53_violated_shutdown` (`Props/CryptPoll.lean:207`): C53 does not hold: shutting down an encrypted connection never completes by itself. The poll that finishes the flush returns `Pending` without having asked for a wake-up; and it has taken the transport, so every later write of 1024 bytes or flush panics.
- `C53_shutdown_rest` (`Props/CryptPoll.lean:256`): C53, the rest of a shutdown. After the poll that finishes the flush, further polls of the shutdown do what the transport's shutdown does: they wait (now with a wake-up), end with its error, or with `Ok`; then a further poll panics. Each asks the transport once. Meanwhile writes are still accepted, as long as less than 1024 bytes are in the buffer; nothing of them is ever sent.

## C54 What a completed key exchange proves

A client that completes the key exchange has received, after a trusted public key, a package that somebody encrypted under the secret shared with that key. A server that completes it has received 32 bytes that are a trusted public key, and nothing more is needed: it completes with everyone who sends them. (A user would expect both sides to prove possession of their secret.)

- `C54_violated_server` (`Props/Handshake.lean:408`): C54 does not hold for the server: it completes the exchange with everyone who sends a trusted public key, of which no secret is known or needed.
- `C54_client` (`Props/Handshake.lean:430`): C54, the client: when it completes, it has received, after a trusted public key, a package that somebody encrypted under the key agreed with that public key. It need not have been encrypted in this session, see `C55_violated_replay`.

## C55 How far a recorded session can be replayed

An attacker who replays the recorded bytes of the server of an old session makes the client complete the exchange with the old session key and accept the recorded events again; without forging packages he can make it deliver nothing but what was sent under that key, each at its place. (A user would expect that a replay is refused.)

- `C55_violated_replay` (`Props/Handshake.lean:454`): C55 does not hold: whatever the server sent in a session `p` with this client, replayed by anybody to a later connection of the client, makes the client complete the exchange and start a session with the old key and with counters 0. Then it accepts, by C40, the recorded packages of the old session as new events; and its own packages use the key and the nonces of the old session again.
- `C55_violated_events` (`Props/Handshake.lean:489`): C55: a client that was made to start the session `fresh` again takes the recorded packages of the server for new events.
- `C55_only_recorded` (`Props/Handshake.lean:504`): C55, how far a replay goes: in a session with the key `fresh`, old or new, whatever bytes arrive, as long as nobody forges packages of that key: at each place the client delivers only what the server (`sent`) or the client (`own`) has sent under that key at that place. So a replay delivers recorded events, in their order, from the first on, and nothing else.

## C56 The result of starting a server

build_server returns an error exactly if the address was missing or binding the listener failed, and then that error; every other end is Ok. Nobody is served before the listener is bound or after build_server has returned.

- `C56_start_result` (`Props/Server.lean:306`): C56: in every run, `start` has returned the error `e` exactly if binding the listener failed with `e`; every other end is `Ok`. Nobody is served before the listener is bound, and nobody after `start` has returned.

## C57 End to end over the bytes

Two endpoints joined by any number of plain and encrypted connections see exactly what they would see if events arrived as a whole and in order: however the bytes are written, cut, delayed and delivered and however emits, requests and handlers interleave, the events read on a connection are a prefix of those emitted on it, every reply a request receives was emitted by the one handler task of the other side that handled this request, in order, and an End or Error reply carries the result of that handler.

- `C57_faithful` (`Props/Stack.lean:13`): **C57, one direction of a connection.** Whatever the emitters, the transport and the receiver do, in any order, with any partial writes and reads: the events read are those emitted, in order, none lost, doubled or changed.
- `C57_refines` (`Props/Stack.lean:43`): **C57, refinement.** However the bytes are written, cut, delayed and delivered: what the two endpoints can get to see is what they can get to see if events arrive as a whole and in order. All properties of two joined endpoints carry over.
- `C57_end_to_end` (`Props/Stack.lean:51`): **C57, end to end.** Two endpoints joined by any number of plain and encrypted connections, any number of concurrent requests and handlers, any fragmentation of the bytes: everything a request has received was emitted by the one handler task of the other side that handled the event of this request, and is a prefix of what that task emitted.
- `C57_final_result` (`Props/Stack.lean:60`): **C57, the answer.** The End or Error event that a request receives over the bytes carries the result of its handler.

## C58 A connection is never stuck by itself

From every state that a connection can reach, plain or encrypted, without a failed or dropped emit and without a transport error, it is possible that every event emitted so far is completely written, transported and read, without any further emit.

- `C58_link_live` (`Props/Stack.lean:22`): **C58, one direction of a connection.** The connection is never stuck by itself: in every state it is possible, without help from any other emitter, that all the events emitted so far get read.

## C59 An encrypted connection is a faithful byte stream

Whoever writes to an encrypted connection in buffers of any size below 4 GiB, with flushes anywhere, and polls each call until it is ready: no call fails while the transport works, every call returns if the transport takes at least one byte in each poll, a flush that has returned has put everything written so far on the wire, between calls fewer than 1024 bytes of what was written are held back (each package adds 20 bytes), and what the peer reads, with poll_read or read_exact and buffers of any sizes, is in a row the beginning of what was written, and all of it after a flush, once everything has arrived and the reader has polled often enough. (tokio's read_u16, read_u32 and read_u64 forget what a pending poll has put into their buffer, so with them bytes are lost if an integer is cut by the end of a package; the library never does that because each event is one package.)

- `C59_written` (`Props/CryptBytes.lean:32`): **C59, writing.** Whatever is written, in buffers of any size and with flushes anywhere: no call fails, and the bytes on the wire are the beginning of a sequence of packages, numbered from 0, whose plaintexts in a row are the beginning of what has been written.
- `C59_flushed` (`Props/CryptBytes.lean:42`): **C59, flushing.** When a flush has returned, everything that had been written is completely on the wire.
- `C59_held_back` (`Props/CryptBytes.lean:66`): **C59, what is held back.** Between calls, also without any flush, fewer than 1024 bytes, the last ones, of what has been written are not on the wire yet; the others are, in complete packages, each of which adds 20 bytes.
- `C59_finishes` (`Props/CryptBytes.lean:204`): **C59, progress.** Whatever has been written and flushed before: every write and every flush, new or under way, returns `Ok` if it is polled again and again and the transport takes at least one byte in each poll.
- `C59_read` (`Props/CryptBytes.lean:219`): **C59, `poll_read`.** Whatever buffers the read half is polled with and however the bytes arrive: the bytes put into the buffers are in a row the beginning of the plaintexts.
- `C59_read_all` (`Props/CryptBytes.lean:227`): **C59, everything is read.** If all the packages arrive then enough polls, with whatever buffers that are not empty, put all of the plaintexts into the buffers: as many polls as there are pieces of the wire, packages and bytes together.
- `C59_read_exact` (`Props/CryptBytes.lean:234`): **C59, `read_exact`.** The same for the results of `read_exact`, which have the length that was asked for.
- `C59_stream` (`Props/CryptBytes.lean:242`): **C59, both ends.** What is read is the beginning of what was written.
- `C59_all` (`Props/CryptBytes.lean:250`): **C59, both ends, after a flush.** Once a flush has returned and its bytes have arrived, enough polls of the reader return everything that was written.
- `C59_violated_read_u32` (`Props/CryptBytes.lean:292`): The reads that C59 leaves out: `read_u16`, `read_u32`, `read_u64` of tokio forget what a pending poll has put into their buffer. Two packages with the plaintexts 1 2 3 4 5 and 6 7 8 9; after `read_u8` a `read_u32` finds 2 3 4 5, but after two more bytes a `read_u32` that has to wait for the second package returns 6 7 8 9, and 4 5 are lost.

## C60 From key exchange to events

However a key exchange went that both sides completed, the connection the two sides then hold is a faithful encrypted connection in both directions: what one side emits is what the other reads, events sent by the server before the client has completed are not swallowed, and no byte of the exchange is taken for an event.

- `C60_session` (`Props/Session.lean:38`): **C60.** However a key exchange went that both sides have completed: what the server then emits with the write half it got is what the client reads with the read half it got, and the other way round; and neither direction can get stuck by itself.
- `C60_clean` (`Props/Session.lean:51`): **C60, nothing is left over and nothing is swallowed.** When both sides have completed the key exchange, the bytes in the receive buffer of a side are exactly the bytes that the other side sent after it had completed: no byte of the exchange is left, and no byte of the session is consumed by the exchange, although the server may send events before the client has finished. So the first byte that a side reads in the session is the first byte of the session that the other side sent.

## C61 A pending request can always complete

Two endpoints joined by working connections never get into a state from which a pending request made with a connection's context can no longer complete: as long as its connection is still read on both sides and its handler has not panicked, await_reply can still return a reply, and a stream can still get to its End event or to the Error event of its handler, merely by receive loops, waiting requests and handlers going on; even if a receive loop is blocked by the full channel of another request.

- `C61_await_reply_can_complete` (`Props/Progress.lean:425`): **C61: `await_reply` can complete.** Whatever two joined endpoints have done so far: a pending `await_reply` made with the connection's context, whose connection is still read on both sides and whose handler has not panicked (and could write its answer), can still return a reply, by nothing but the receive loops, the other requests and the handlers going on: no state is stuck for good.
- `C61_stream_can_complete` (`Props/Progress.lean:449`): **C61: `stream_replies` can get to the answer of the handler.** The same for a stream: it can be brought to its end by the End event, or to yielding the Error event of its handler (which does not end it, C63).

## C62 Requests made by a handler

A request that a handler makes with its own context refers to the event it handles. If the peer has a pending request for that event, the peer takes the handler's request for a reply: it is never passed to an event handler and never answered, in every continuation; the handler's request can only time out, fail or be dropped.

- `C62_taken_as_reply` (`Props/Progress.lean:521`): **C62: an event that the peer took for a reply is never answered.** If the event of a request was delivered to a request of the other side, then the request never receives anything, whatever happens afterwards: it can only time out, fail or be dropped.
- `C62_nested_request_unanswered` (`Props/Progress.lean:575`): **C62: a handler's own request to the peer that waits for the handler is not answered.** As long as the request `r'` of the second side is pending (a stream, say), a request made with the context of its handler receives nothing: the peer takes it for a reply.

## C63 A stream whose handler has failed

If the handler of the event of a stream_replies has returned an error or panicked, the stream never ends by itself: in every continuation it yields no End event, and after the Error event it stays pending until it times out or is dropped.

- `C63_failed_stream_never_ends` (`Props/Progress.lean:646`): **C63: a stream whose handler has failed never ends.** If the handler of the event of a `stream_replies` has returned an error (or panicked), then in every continuation the stream never yields an End event and is never finished by one: after the Error event it stays pending until it times out or is dropped.

## C64 Who keeps a connection open

The sending side of a connection stays open exactly as long as its receive loop runs or some context, emit, request or handler of that connection is left; the socket is closed exactly when neither is the case. The receive loop of a client ends only because reading ended or because somebody called stop; dropping all contexts of a client does not end it. stop can be called from any context of the connection, also inside a handler, always succeeds, and ends the receive loop, but the peer does not see the end of the stream while another clone is left. On a connection of a server stop has no effect.

- `C64_write_half_iff` (`Props/Life.lean:10`): **C64.** Whatever is cloned, emitted, awaited, handled, stopped and dropped, in whatever order: the write half of a connection exists exactly as long as the receive loop runs or something is left that could still emit on it. When it ceases to exist the peer sees the end of the stream.
- `C64_closed_iff` (`Props/Life.lean:28`): **C64.** The socket is closed (both halves are gone) exactly if the receive loop has ended and nothing is left that could emit.
- `C64_client_loop_ends` (`Props/Life.lean:34`): **C64.** The receive loop of a client ends only because reading ended, or because the abort that a `stop` asked for was carried out.
- `C64_abandoned_goes_on` (`Props/Life.lean:81`): **C64.** So an abandoned client goes on: whatever contexts and futures are dropped, as long as nobody has called `stop` and the stream has not ended, the receive loop runs, and the connection is open in both directions; received events are still handled. (A user would expect that a client without any context disconnects.)
- `C64_stop_works` (`Props/Life.lean:99`): **C64.** `stop` works from every context, also from that of a handler, at any time: every `send` that it has done has succeeded (so `stop` has returned `Ok`), and as long as the receive loop runs, a `stop` is followed by the abort, which ends it.
- `C64_server_loop_ends_iff` (`Props/Life.lean:138`): **C64.** The receive loop of a server's connection ends exactly if reading ends; `stop` has no effect on it.
- `C64_violated_stop` (`Props/Life.lean:169`): **C64: `stop` does not close the connection**, although its documentation says so: while another clone of the context, or an emit or request, is left, the write half stays open; the peer does not see the end of the stream, and the clone can still emit, but nothing is received any more.

## C65 A pool whose build fails

build_pooled_client makes connections one after the other until one attempt fails, whose error it returns. The connections made before are not closed: nobody has a context of them, but they stay open in both directions and their receive loops run.

- `C65_failed_pool` (`Props/Life.lean:174`): **C65.** Building a pool makes connections until one attempt fails. If all succeed, all connections are in use. If one fails, its error is returned, and the connections made before it are left: nobody has a context of them, but their receive loops run and they are open in both directions. (A user would expect that they are closed.)
- `C65_same_loop` (`Props/Life.lean:241`): C65: the same loop as in `IPCBuilder.buildPooledClient` (C31).

## C66 What contexts share, and their settings

build_client makes one connection and gives its context, build_pooled_client(n) gives one context for each of n connections. Every context of the user or of a handler has the reply timeout and default serializer given last to the builder (60 s and the first available format if none was given) unless a field of that context or of the one it was cloned from was assigned; an assignment affects no other existing context, and never the contexts of handlers of later events. A handler's context emits on the connection its event came from, as answer to it. All contexts of a build share the same data; contexts of the same connection, and only those, share a stop sender, which exists exactly until stop is called on that connection, and never on a server; reply listeners are shared by all connections of a client or pool, and by nothing but the same connection on a server.

- `C66_settings` (`Props/Assembly.lean:109`): **C66.** Whatever was called on the builder, and whatever happened since: as long as nobody has assigned to the field `default_reply_timeout` of a context, every context, of the user or of a handler, has the timeout given last to the builder, 60 s if none was given; and likewise for the default serializer, which is the first available format if none was given.
- `C66_setting_local` (`Props/Assembly.lean:189`): **C66.** An assignment to a setting of a context changes that setting of that context only; not that of a clone made before.
- `C66_handles` (`Props/Assembly.lean:207`): **C66.** The contexts of a process are independent values. A step leaves all of them as they are except the one it makes, changes or ends: `stop` and dropping end that one only, not its clones; a clone is equal to its original and takes no existing context's place. All but accepting are possible with any context there is, accepting exactly on a server.
- `C66_handler_context` (`Props/Assembly.lean:225`): **C66.** A handler always gets a context with the settings of the builder, whatever was assigned to other contexts, that emits on the connection that the event came from, as answer to that event; and every connection is served with the handlers and namespaces of the builder.
- `C66_sharing` (`Props/Assembly.lean:242`): **C66.** What two contexts of a process share. They have the same data. They have the same stop sender exactly if they are of the same connection. On a client, also on a pooled one, they have the same reply listeners; on a server, exactly if they are of the same connection.
- `C66_stop_iff` (`Props/Assembly.lean:257`): **C66.** A stop sender is left for a connection exactly if it is one of a client, and nobody has called `stop` on a context of that connection: stopping one connection of a pool leaves the others.
- `C66_connections_differ` (`Props/Assembly.lean:266`): **C66.** Different connections have different write halves.
- `C66_config` (`Props/Assembly.lean:279`): **C66.** So the assumptions that other theorems make about listener maps and stop senders hold of what the build functions make: on a server every connection has its own listener map and no stop sender (so C36 applies), on a client all connections share one and have stop senders.
- `C66_server_isolated` (`Props/Assembly.lean:318`): **C36, C66.** On every server that `build_server` makes, a request receives only events that came in on the connection on which it was emitted.
- `C66_given` (`Props/Assembly.lean:347`): **C66.** `build_client` makes one connection and gives its context; `build_pooled_client(n)` makes `n` connections and gives the context of each of them.
- `C66_same_result` (`Props/Assembly.lean:377`): C66: the three build functions end as those of C31 do: `Ok`, with the same error, with a panic, or not at all.

## C67 Shared data

What is read from the data of a context under a key is what was written last under that key: by insert or insert_all on the builder, or through any context made by that build, also one of another connection; nothing if it was removed or never written.

- `C67_shared_data` (`Props/Assembly.lean:484`): **C67.** What is read under a key, through any context of the process, is what was written last under that key, by the builder or through any context of the process (also of another connection of a server or of a pool); nothing, if the last write was a removal or there was none.

## C68 The request futures behave like the requests of the model

However the future of await_reply or the future and stream of stream_replies are polled, with anything going on in the process between the effects of one poll: what they do next (register the listener, write, take a reply, find the channel closed, time out, remove the listener) is always a possible step of the request with exactly that effect on listeners, wire and channel; nothing else happens; what is returned fits what was done (Pending only if nothing was taken, a reply or item only if it came from the channel of this request and refers to its event); a reply that waits in the channel is returned by a poll in which the timer has not fired; and dropping the future between polls ends the request without touching listeners or the wire.

- `C68_next` (`Props/Refine.lean:17`): **C68, what a request does next is possible.** A request is made on a context, and its future is polled, with anything else going on in the process, also between the effects of one poll. Whatever the future does next (insert its listener, write its event, take a reply from the channel, find it closed, run into its timeout, remove its listener) is a step that the endpoint model allows, provided that it is truthful about the channel; the step is that of this request and has just the effect in question.
- `C68_others` (`Props/Refine.lean:25`): **C68, anything else can go on.** Between the polls of the request and between the effects of one poll, whatever else the endpoint can do is possible: events arrive and are dispatched, handlers run, emit, answer and panic, connections come to an end, and other requests are made, sent, answered, time out and are dropped; everything but the steps of this request itself.
- `C68_told` (`Props/Refine.lean:36`): **C68, nothing else happens.** What a poll does, effect by effect, is what is listed as its acts: listeners are inserted and removed, and the event written, exactly there; and what the owner of the future is told fits: `Pending` only if nothing was taken from the channel, a reply or an item only if the channel has yielded it, and so on.
- `C68_replies` (`Props/Refine.lean:49`): **C68, the channel is that of the request.** An event that the future takes from its channel refers to the event that this request emits, which is the one that `emit` / `emit_to` makes on that context, and has come from a peer on a connection of the same listener map.
- `C68_drop` (`Props/Refine.lean:79`): **C68, dropping.** A future can be dropped between two polls. Then its request is over, as a step `drop` of the endpoint, without any effect on listeners or the wire; unless it has not registered its listener, or was over already, and then nothing happens.
- `C68_taken` (`Props/Refine.lean:109`): **C68, no reply is left lying.** If the request is waiting and there is an event in its channel, a poll in which the timer has not fired takes it and gives it to its owner: `await_reply` is ready, the stream has an item.
- `C68_panics` (`Props/Refine.lean:182`): **C68, panics.** A poll panics only if the request is over already (its future, or its stream, has told so before), or it is the first poll and serialising the payload panics or does not end. In particular no reply of a peer makes the poll panic.

## C69 Every received event is served (under fair scheduling)

If receive loops, channel senders, requests, handlers and writers are scheduled fairly and streams are read, then with any peer: every event that arrives on a connection is at some time dealt with, in its place; it is delivered to the request it refers to, or ignored because it is an End event, or a handler task writes exactly one final answer to it - unless the receive loop ends, the callback panics or the answer cannot be written. (If one stream is never read, dropped or timed out, an event behind it can wait for ever.)

- `C69_every_event_is_dealt_with` (`Props/Fair.lean:13`): **C69: every event that arrives is dealt with.** In a fair execution of an endpoint, with an arbitrary peer, every event that arrives on a connection is dealt with at some time (after those before it, and in its place), unless the receive loop of the connection ends.
- `C69_every_task_ends` (`Props/Fair.lean:65`): **C69: every handler task comes to an end.** In a fair execution every handler task panics, fails to write its answer, or has written exactly one final answer, which is an answer to its event.
- `C69_every_event_is_served` (`Props/Fair.lean:73`): **C69: every event that arrives is served.** In a fair execution of an endpoint, with an arbitrary peer: whatever arrives is at some time delivered to the request it refers to, or ignored as an End event, or has been answered by a handler task - unless the receive loop ends, the callback panics or the answer cannot be written.
- `C69_unread_stream_blocks` (`Props/Fair.lean:753`): **C69 needs readers.** If one stream is not read (and neither dropped nor timed out), everything else being scheduled fairly, then an event that arrives on the connection may never be dealt with, although the connection is never lost.

## C70 Requests complete (under fair scheduling)

If two processes joined by connections that carry what is written are scheduled fairly, then every await_reply made with the connection's context returns exactly one event, which refers to the request, and every such stream_replies gets to its End event or yields the Error event of its handler - unless it times out, cannot be written or is dropped, the connection is no longer read on one side, the callback panics or its answer cannot be written. Every event emitted and written is served by the peer while the peer keeps reading.

- `C70_emitted_event_is_served` (`Props/Fair.lean:253`): **C70: every emitted event is served by the peer.** In every fair execution, whatever one side has emitted on a linked connection is at some time dealt with by the other side in the place in which it was emitted - delivered to the request it refers to, ignored as an End event, or answered by a handler task - unless the other side stops reading the connection, the callback panics or the answer cannot be written.
- `C70_await_reply_completes` (`Props/Fair.lean:409`): **C70: `await_reply` completes.** In every fair execution of two joined endpoints, an `await_reply` made with the connection's context returns exactly one event, which refers to the request - unless something comes between (see `GivenUp`).
- `C70_stream_completes` (`Props/Fair.lean:435`): **C70: `stream_replies` gets to the answer of the handler.** The same for a stream: it ends with the End event, or yields the Error event of its handler (which does not end it, C63).

## C71 Requests complete over bytes (under fair scheduling)

Two processes joined by any number of plain and encrypted connections, down to the bytes, the locks of the connections and partial writes: if endpoints, writers, transport and receive loops are scheduled fairly, then a connection that is held for writing gets free again; every event written on a connection is dealt with by the peer in its place while the peer keeps reading; every await_reply made with the connection's context returns exactly one event, which refers to the request; and every such stream_replies gets to its End event or yields the Error event of its handler - unless it times out, fails or is dropped, the connection is no longer read, the callback panics or its answer cannot be written.

- `C71_connection_gets_free` (`Props/FairStack.lean:21`): **C71, connections get free.** In a fair execution whoever holds a connection for writing an event is done at some time: again and again there is a moment at which another emit could get the connection.
- `C71_refines` (`Props/FairStack.lean:30`): **C71, refinement.** Fair scheduling of endpoints, writers, transport and receive loops at the level of bytes is fair scheduling of the two endpoints at the level of events.
- `C71_emitted_event_is_served` (`Props/FairStack.lean:37`): **C71, events.** Every event written on a linked plain or encrypted connection, whatever the fragmentation of its bytes, is dealt with by the other side in its place, as in C70.
- `C71_await_reply_completes` (`Props/FairStack.lean:47`): **C71, `await_reply`.** In every fair execution at the level of bytes, `await_reply` returns one reply to its request, unless something has come between.
- `C71_stream_completes` (`Props/FairStack.lean:55`): **C71, `stream_replies`.** In every fair execution at the level of bytes, a stream that is read gets to its end or yields the error of its handler.

## C72 Which calls the protocols make, and with which options

Binding a TCP, unix or (possibly nested) encrypted listener makes one bind call with the address given and then, for TCP with a TTL, one set_ttl call with that TTL; accepting makes one accept call and then one key exchange per encrypted layer, innermost first, each with the keys given for that layer at bind time; connecting makes one connect call, then set_ttl or ready, then one key exchange per layer, innermost first. The first call that fails ends the operation with its error and no further call is made; the operation succeeds iff all calls succeed. None of them panics; errors are IO errors or UnknownPeer with a key that is not trusted by a layer. A builder uses the address, server_options and client_options given last; a pool of n makes n complete connections. Default options have no TTL, and for each encrypted layer no trusted peers and a secret from its own draw of the random generator. An encrypted protocol used with its default options can neither accept nor connect to anybody.

- `C72_bind_accept` (`Props/Protocol.lean:76`): C72, binding: whatever the encrypted layers, one `bind` to the given address, and then (TCP with a TTL) one `set_ttl` with that value. The result is `Ok` iff both succeed; otherwise it is what the first one that failed returned. And a listener that was bound accepts with one `accept` and one key exchange per layer, from the innermost layer outwards, each over the connection of the layers below and with the keys that were given for it when binding. The TTL is not set on accepted connections. The stream is a TCP or unix stream, as the listener, in one encrypted stream per layer.
- `C72_connect` (`Props/Protocol.lean:92`): C72, connecting: one `connect` to the given address, then `set_ttl` (TCP with a TTL) or `ready` (unix), then one key exchange per layer, from the innermost outwards.
- `C72_performs` (`Props/Protocol.lean:104`): What performing a plan means: with `Ok`, every call of the plan was made, in order, and succeeded. Otherwise the calls up to the first that did not succeed were made, and its outcome is the result.
- `C72_untrusting` (`Props/Protocol.lean:131`): C72: if one of the layers has keys that trust nobody (no known peers, strangers not allowed), then nobody can be accepted and no connection can be made, whatever the other layers, the transport and the peer.
- `C72_default_keys` (`Props/Protocol.lean:164`): C72: the default options of a protocol with `n` encrypted layers: no TTL; each layer trusts nobody and has a secret of its own, from a draw of the random generator that no other layer uses.
- `C72_default_options` (`Props/Protocol.lean:198`): C72: a server or client of an encrypted protocol, built without `server_options` / `client_options`, cannot accept or connect to anybody.
- `C72_errors` (`Props/Protocol.lean:255`): C72: binding, connecting and accepting never panic, and fail only with an IO error, or (connecting, accepting) with `UnknownPeer` and a key that the keys of some layer do not trust.
- `C72_builder` (`Props/Protocol.lean:342`): C72, the builder: without an address nothing is called. With one, `build_server` binds the last address given with the last `server_options` given, `build_client` connects to it with the last `client_options`, and their results are returned; `Options.default` stands for options that were not given.
- `C72_pool` (`Props/Protocol.lean:409`): C72, pools: `n` complete connections to the last address given, with the last `client_options` given, one after the other; the first call that fails ends all, with its error.

## C73 When event ids of two processes collide, and what comes of it

Among the first 2^32 events of each of two processes, two events have the same id iff they have the same number within their process and were created in the same millisecond, up to multiples of 65535 seconds; so all ids on a connection are different (what end-to-end correlation relies on) iff no such pair exists, and always if both sides live in one process that creates at most 2^32 events. If it happens, a request can end with an error although its answer has arrived: handling the peer's event with the same id removes the request's reply listener.

- `C73_collide_iff` (`Props/Ids.lean:150`): C73, exactly when ids of two processes collide: among the first 2^32 events of each, the `i`-th of the one and the `j`-th of the other have the same id iff they have the same number and were created at the same moment (in the sense of `SameMoment`).
- `C73_distinct_iff` (`Props/Ids.lean:170`): C73, what C46, C57, C70 and C71 assume of the ids of two processes (`DistinctIds`) holds iff no two events with the same number are created at the same moment: each of the two processes has created at most 2^32 events, in whatever order (`Perm`).
- `C73_same_process` (`Props/Ids.lean:202`): C73, both sides in one process (as in tests): they share the counter, so the assumption holds for the first 2^32 events of both together.
- `C73_violated` (`Props/Ids.lean:223`): C73 is not as a user may expect: two processes that create their first events in the same millisecond. The first makes a request, the second emits an event; the first handles this event, and that removes the listener of its own request. The second side handles and answers the request, the answer arrives - and is ignored; the request ends with an error (the channel is closed).

## C74 Under fair scheduling, servers serve everybody and key exchanges complete

If a server is scheduled fairly (start binds or fails, accept returns when somebody waits, a key exchange that goes on is polled again and again), everyone who connects is served, in the order of connecting, unless the server ends or stays for ever in the key exchange with one client. A plain server never gets stuck. An encrypted server is stuck only if the client it exchanges keys with never sends the 32 bytes of its key and never closes the connection, or stops taking what the server writes (a user would expect that such a client does not keep others waiting, but it does). Two sides that trust each other, over an undisturbed connection, scheduled fairly, both complete the key exchange with the same secret, however reads and writes are divided.

- `C74_served` (`Props/FairServer.lean:79`): **C74, servers.** In every fair execution of a server, plain or encrypted: everyone who connects is served, in the order of connecting, unless the server ends (see C35 for when), or stays for ever in the key exchange with one client.
- `C74_plain` (`Props/FairServer.lean:168`): **C74, plain servers** never get stuck: everyone who connects is served, unless `accept` fails.
- `C74_stuck_only` (`Props/FairServer.lean:315`): **C74, why an encrypted server is stuck.** If a server that is scheduled fairly stays for ever in the key exchange with a client, then this client never sends the 32 bytes of a key and never closes the connection, or from some point on the transport takes nothing of what the server writes (the client does not read). So a client that closes the connection too early, or sends its key and reads what it is sent, does not block the server.
- `C74_encrypted` (`Props/FairServer.lean:380`): **C74, all together.** If every client with which an encrypted server is in a key exchange sends its key, or closes the connection, at some time and goes on reading what it is sent, then everyone who connects is served, unless the server ends.
- `C74_exchange` (`Props/FairServer.lean:402`): **C74, key exchanges.** Two sides that trust each other, over an undisturbed connection, scheduled fairly, complete the key exchange, whatever the division of reads and writes is; and they stay so.

## C75 What an encrypted connection does after write errors

If calls on the write half of an encrypted connection are awaited (not dropped), none of them panics, whatever errors the transport has reported before. Every byte of every write begun is in exactly one package or still in the buffer; packages are numbered without gaps; of each a beginning is on the wire, and the packages of which something is missing are at most as many as the calls that returned an error. What a failed call has not written is lost, and later writes and flushes return Ok again; but (if nothing deciphers as a package that was not written completely) the peer never reads anything beyond the first torn package. Every write or flush, new or under way, after any errors, returns if it is polled while the transport takes at least one byte per poll, and returns Ok if the transport reports no error in these polls. (A user would expect that data whose writing and flushing was reported Ok can be read, or that the connection stays failed.)

- `C75_written` (`Props/CryptErr.lean:15`): **C75, writing.** Whatever the transport answers, errors included, if calls are not dropped: no call panics, also not after errors. Every byte of every write that was begun is in exactly one package, or still in the buffer; of each package, numbered from 0 without gaps, a beginning is on the wire, and the packages of which something is missing are no more than the calls that have returned an error (and one, while a call is going on). After a flush, `Ok` or not, nothing is left in the buffer: what a failed call has not written is lost.
- `C75_read` (`Props/CryptErr.lean:40`): **C75, reading.** A reader of the same connection, if nothing on the wire deciphers as package number `i` unless this package was written completely: it reads only what is in the packages before the first one that is torn. So nothing that is written after a torn package ever arrives, although writes and flushes return `Ok` again.
- `C75_violated_lost` (`Props/CryptErr.lean:96`): (A user would expect that data whose writing and flushing was reported `Ok` is read.) The write and the flush of the byte 4 have returned `Ok`, but the peer cannot read it: the read after the first two bytes fails.
- `C75_finishes` (`Props/CryptErr.lean:219`): **C75, progress.** Whatever has been written and flushed before and whatever errors there were: every write and every flush, new or under way, returns if it is polled again and again and the transport takes at least one byte in each poll; and it returns `Ok` unless the transport gives an error (or accepts nothing) in one of these polls. So a write half works again after an error, as far as its caller can see.

## C76 How a key exchange with an arbitrary peer ends, and what it waits for

Whatever the peer sends, when it closes, however reads and writes are divided and whatever errors the transport reports: neither side of a key exchange panics. The server's side fails only with UnknownPeer (and the peer has sent the key of a stranger), with UnexpectedEof (the peer has closed before its 32-byte key was complete) or with an error of the transport; the client's side also with UnexpectedEof if the session key was cut off, and with InvalidData if a package does not decipher as the next one. If the client's side completes, the session key is the first 32 bytes deciphered and the rest of the last package is what is read first from the connection. If everything that has arrived is handed out and the transport takes what is written, a poll ends the exchange, unless the peer's key (or, for the client, the package with the session key) has not arrived completely and the peer has not closed; or the server has sent a session key that is too short: then the client waits for ever, even if the server has closed (a user would expect an error).

- `C76_server` (`Props/HandshakeErr.lean:17`): **C76, server.** Whatever a client sends: the server's side of a key exchange does not panic. It fails only with the key of a stranger that the client has sent (`UnknownPeer`), with `UnexpectedEof` if the client has closed the connection before its key was complete, or with an error of the transport.
- `C76_client` (`Props/HandshakeErr.lean:32`): **C76, client.** Whatever a server sends: the client's side of a key exchange does not panic. It fails only with the key of a stranger, with `UnexpectedEof` if the server has closed the connection before its key or the session key was complete, with `InvalidData` if the server has sent a package that does not decipher as the next one, or with an error of the transport. If it completes, the session key is the first 32 bytes of what was deciphered; what follows them in the last package is the first that will be read from the connection.
- `C76_server_waits` (`Props/HandshakeErr.lean:75`): **C76, what the server waits for.** If all that has arrived is handed out and the transport takes what is written, a poll ends the server's side of the exchange, unless the 32 bytes of the client's key have not arrived yet and the client has not closed the connection.
- `C76_client_waits` (`Props/HandshakeErr.lean:89`): **C76, what the client waits for.** If all that has arrived is handed out and the transport takes what is written, a poll ends the client's side of the exchange, unless the server's key, or the package with the session key after it, has not arrived completely and the server has not closed the connection, or the server has sent a session key that is too short.
- `C76_violated_short` (`Props/HandshakeErr.lean:130`): (A user would expect that a connection attempt ends when the server closes the connection.) If a server has sent a session key that is too short and has closed the connection, the poll in which the client reads it leaves it waiting, although nothing more can arrive; and it has not asked to be woken, so it waits for ever.

## C77 Encryption inside encryption, to any depth

Over an encrypted connection whose transport is itself an encrypted connection (and so on, any number of layers): whatever the socket answers, each event emitted goes to the wire in exactly one package of the outermost layer, which is in exactly one package of the next layer, down to the socket; every layer numbers its packages without gaps and repeats no nonce; when no emit is under way nothing is left in any buffer. A peer with the same layers reads exactly the events whose packages are complete, in order, then waits or sees the end of the stream. Emits do not panic, fail only if the socket fails, are woken by the socket when pending, and get on whenever the socket takes bytes. One layer behaves as the plain encrypted connection; with several layers all end-to-end guarantees (C57, C58, C61, C71) hold as well.

- `C77_wire` (`Props/Layers.lean:99`): **C77, the wire.** Any number of encrypted layers in each other: whatever the transport answers (partial writes, pending polls), what has gone to the socket is a prefix of the events in the order in which their emits got the connection, each in one package of the outermost layer, which is in one package of the next, and so on, numbered by each layer from its own start. When no emit holds the connection, it is all of it: nothing is left in the buffer of any layer.
- `C77_peer_reads` (`Props/Layers.lean:146`): **C77, the peer.** A peer with the same layers, to which a prefix of such a sequence has come, however the socket cuts it: it reads exactly the events whose packages are complete, in order, and then waits, or sees the end of the stream if the socket is closed.
- `C77_faithful` (`Props/Layers.lean:206`): **C77, end to end.** What is read from a connection with nested layers is what was emitted, in order.
- `C77_live` (`Props/Layers.lean:210`): **C77, no deadlock.** In every state it is possible, without help from any other emitter, that all the events emitted so far get read.
- `C77_poll` (`Props/Layers.lean:217`): **C77, polls.** However the transport answers, a poll of the emit that holds the connection returns `Ok`, or is pending with its task registered at the socket, and then bytes have gone to the wire if the socket was ready; it fails only with an error the socket reports, or with `WriteZero` if the socket takes nothing. It does not panic.
- `C77_poll_wire` (`Props/Layers.lean:253`): C77, polls: however such a poll ends, also with an error, what has gone to the wire is a prefix of the packages of the events.
- `C77_nonces` (`Props/Layers.lean:343`): **C77, nonces.** Each layer encrypts one package for each emit, only with its own key, and package number `j` with the nonce for the number `j` after the packages it had sent before; so no nonce occurs twice among 2^64 packages.
- `C77_one_layer_write` (`Props/Layers.lean:379`): **C77, one layer.** One encrypted layer over a socket is the encrypted connection of the other properties: polls to write and to flush give the same result, use the same answers and put the same bytes on the wire.
- `C77_one_layer_read` (`Props/Layers.lean:387`): C77, one layer: the same for a poll to read, in every state that polls lead to from a new stream.
- `C77_one_layer_source` (`Props/Layers.lean:394`): C77, one layer: reads that are driven to their end have the same outcome, also if they hang for ever, fail or panic; so do reading an event and the loop that reads events.
- `C77_one_layer_new` (`Props/Layers.lean:403`): A new stream.

## C78 End to end over connections that lose events

If of the events emitted on a connection only a subsequence arrives (as, shown down to the bytes, on encrypted connections, also with encrypted layers in each other to any depth, whose emits are dropped at any point), then still everything a request receives was emitted by the one handler that handled the event of this very request, in the order it was emitted, unaltered and nothing twice; the End or Error event it receives is the answer made from the result of that handler; nothing that arrived for it is skipped; End events are not exchanged endlessly and an error event handled by the default handler ends the exchange. What loss can change: `await_reply` may return a later event of the handler than the first. An event that has not arrived while one emitted after it on the same connection has, never arrives: a request whose event is lost in this way never gets a reply and waits until its timeout fires or it is dropped; a stream whose handler's answer is lost never ends by itself, and no event that is lost is ever given to a request.

- `C78_end_to_end` (`Props/Lossy.lean:77`): **C78.** Also over connections that lose events: everything a request has received was emitted by the one handler task of the other side that handled the event of this very request, in the order in which that task emitted it, none of it twice; and of what arrived from that task the request has missed nothing up to what it received last.
- `C78_final_result` (`Props/Lossy.lean:158`): **C78: the End or Error event that a request receives is the answer made from the result of its handler.**
- `C78_no_ping_pong` (`Props/Lossy.lean:185`): **C78, C29.** Between two endpoints with different ids, over connections that lose events, an End event is only ever handled (rather than received by a request, or dropped) if the event it answers is an Initiator or a Response. So an answer to an End or Error event is never answered again.
- `C78_error_exchange_ends` (`Props/Lossy.lean:212`): **C78, C47.** Over connections that lose events: if the first endpoint handles an error event with its default error handler, then all that it emits for it is one End event without payload, and no handler of the other side ever handles that End event: the exchange is over.
- `C78_reply_not_first` (`Props/Lossy.lean:281`): **C78: loss shows.** The hypotheses of C78 can be met, and `await_reply` may then return a later event of the handler than the first (compare `C46_await_reply`).
- `C78_loses_at_most` (`Props/Lossy.lean:301`): **C78, one direction of a connection.** Whatever emits are dropped on an encrypted connection, or on one with any number of encrypted layers, at whatever points, and whatever the other emitters, the transport and the receiver do, in any order: the receiver reads only events that were emitted, in this order, each at most once and unaltered. A connection on which no emit is dropped that holds it does so too (and loses nothing, C57).
- `C78_refines` (`Props/Lossy.lean:317`): **C78, refinement.** What two endpoints can get to see over connections on which emits are dropped, down to the bytes, is what they can get to see over connections that lose events and do nothing worse.
- `C78_end_to_end_bytes` (`Props/Lossy.lean:324`): **C78, end to end over the bytes.**
- `C78_final_result_bytes` (`Props/Lossy.lean:334`): **C78, the answer over the bytes.**
- `C78_lost_forever` (`Props/LossyLater.lean:20`): **C78: what is lost stays lost.** If an event has not arrived on a connection while one that was emitted after it has, it never arrives.
- `C78_lost_request` (`Props/LossyLater.lean:30`): **C78: a lost request.** A request whose event is lost never gets a reply: it waits until its timeout fires or it is dropped.
- `C78_lost_answer` (`Props/LossyLater.lean:53`): **C78: a lost answer.** If the answer of the handler of a request (the End or Error event) is lost, the request never gets one, and a reply stream never ends by itself; and nothing that is lost is ever given to a request.
- `C78_lost_request_bytes` (`Props/LossyLater.lean:127`): **C78: a lost request, over the bytes.** On connections on which emits are dropped: a request whose event is lost, because a later event of its connection has arrived, never gets a reply.
- `C78_lost_answer_bytes` (`Props/LossyLater.lean:136`): **C78: a lost answer, over the bytes.**

## C79 How timeouts are measured

An await_reply reports Timeout only in a poll that happens at least its timeout (that of with_timeout, else the context's default) after the poll in which its event was completely written; time spent writing does not count, and there is no timeout meanwhile. Conversely, once that time has passed and the timer is noticed, it is not pending any more, and reports Timeout if there is no reply. A reply stream reports Timeout only at least the timeout after the first poll for the item in question, that is the first poll after the stream was opened or gave its previous item: every item has the whole timeout, and time in which nobody polls the stream does not count; and once the timeout has passed since that first poll and the timer is noticed, the stream reports Timeout if there is no item.

- `C79_not_early` (`Props/Timed.lean:15`): **C79, `await_reply` does not time out early.** If a poll of an `await_reply` says `Timeout`, then the event has been written completely, in this or an earlier poll, and since that poll at least the timeout has passed: that given to `with_timeout`, else the default one of the context. In particular, however long it takes to write the event, this does not count, and the request does not time out meanwhile.
- `C79_not_late` (`Props/Timed.lean:41`): **C79, `await_reply` does not time out late.** If a poll of an `await_reply` is pending, although timers that are due are noticed, then the event is not yet written completely, or the timeout has not yet passed since the poll in which it was.
- `C79_times_out` (`Props/Timed.lean:101`): **C79, a request without an answer times out.** If the event has been written, all polls so far were pending, and now, the timeout having passed since the poll that wrote it, timers that are due are noticed and there is nothing in the channel, then this poll says `Timeout`.
- `C79_stream_not_early` (`Props/Timed.lean:132`): **C79, a stream does not time out early.** If a poll of a reply stream says `Timeout`, at least the timeout has passed since the first poll for this item: the first one after the stream was opened, or had given its previous item. So each item has all of its time, however long the stream has been open; and time in which nobody asks for an item does not count. While the stream is being opened there is no timeout.
- `C79_stream_not_late` (`Props/Timed.lean:158`): **C79, a stream does not time out late.** If a poll of a reply stream is pending, although timers that are due are noticed, then the timeout has not yet passed since the first poll for this item.
- `C79_stream_times_out` (`Props/Timed.lean:198`): **C79, a stream whose next item does not come times out.** If, since the stream was opened or gave its last item, there were polls, all pending, and now, the timeout having passed since the first of them, timers that are due are noticed and there is nothing in the channel, then this poll says `Timeout`.

## C80 Setting up encrypted layers in each other

protocol_connect and protocol_accept of EncryptedStream over EncryptedStream (to any depth) connect the inner stream, with its own key exchange, and then do a key exchange through it. Whatever the sockets answer and however the two sides are polled, what the client sends is a prefix of its public keys, from the innermost layer, each through all layers inside; what the server sends is a prefix of, for each layer, its public key and the session key in a package with the shared secret. A side that is done has sent all of it, trusts the peer in every layer, and has in every layer the session that the other side has: key, package numbers, nothing buffered; what came after the set-up is not lost. Neither side panics, loses its wake-up, or fails for another reason than a failed write, an early close or a stranger, and the error says which; a side that meets a stranger never has a connection and sends nothing for the layers around. If the sockets do not fail and all bytes arrive, a side is done, or reports the stranger, after a known number of polls in which its socket takes something; if the connection is closed before, it does not wait but reports that, after as many polls. Each side uses a nonce at most once with a key of the set-up (provided the random session key differs from the shared secret; that the two directions share keys and nonces is C38).

- `C80_one_layer_server` (`Props/ExchangeOne.lean:12`): **C80, one layer, server.** Whatever the socket answers, and however often the future of one layer is polled: there is a history of the key exchange of Model/Handshake.lean, in which the same bytes arrive and the polls get the same answers, that leads to the same outcome, with the same bytes sent.
- `C80_one_layer_client` (`Props/ExchangeOne.lean:44`): **C80, one layer, client.**
- `C80_wire` (`Props/LayerExchange.lean:34`): **C80, the wire.** Client and server set up any number of encrypted layers in each other. Whatever the sockets answer, and however often and in which order the two are polled: what the client has sent is a prefix of its public keys, one for each layer from the innermost, each through all layers inside; and what the server has sent is a prefix of, for each layer, its public key and then the key it made, in a package with the secret that both compute. A side that is done has sent all of it.
- `C80_client_done` (`Props/LayerExchange.lean:44`): **C80, the sessions of the client.** A client that is done trusts the server in every layer, has received all that the server sends for the set-up, and has a session in every layer, with the key that the server made for it; the packages of each are numbered from the number of those that the set-up of the layers around it has sent. Nothing is buffered, and all that was received after the set-up is still there to be read.
- `C80_server_done` (`Props/LayerExchange.lean:57`): **C80, the sessions of the server.** The same for a server that is done: it reads with the sessions that the client writes with, and writes with those that the client reads with.
- `C80_client_outcome` (`Props/LayerExchange.lean:71`): **C80, no other outcome.** The client does not panic; while it is pending its task is registered at the socket; and it fails only with the error of a write to the socket, with `WriteZero` if the socket takes nothing, with `UnexpectedEof` if the connection is closed before all that the server sends has arrived, or with `UnknownPeer` and the public key of the server in some layer if it does not trust it there.
- `C80_server_outcome` (`Props/LayerExchange.lean:91`): C80, no other outcome, the server.
- `C80_client_refuses` (`Props/LayerExchange.lean:115`): **C80, strangers.** A client that does not trust the server in some layer never has a connection, and sends nothing for the layers around it.
- `C80_server_refuses` (`Props/LayerExchange.lean:142`): C80, strangers, the server: one that does not trust the client in some layer never has a connection, and sends nothing for this layer and those around it.
- `C80_client_completes` (`Props/LayerExchange.lean:193`): **C80, progress.** A client that trusts the server in every layer, and to which all that the server sends arrives sooner or later, in whatever pieces, is done after as many polls in which the socket takes something as it has bytes to send, the socket has answers to read, and there are layers, whatever other polls come between.
- `C80_client_reports` (`Props/LayerExchange.lean:213`): **C80, the refusal is reported.** Under the same conditions a client that does not trust the server in some layer fails with `UnknownPeer` and the public key of the server in such a layer.
- `C80_server_completes` (`Props/LayerExchange.lean:233`): C80, progress, the server.
- `C80_server_reports` (`Props/LayerExchange.lean:253`): C80, the refusal is reported, the server.
- `C80_client_ends` (`Props/LayerExchange.lean:274`): **C80, the end is reported.** A client whose connection is closed before all that the server sends has arrived does not wait for ever: after as many polls in which the socket takes something it has failed, with `UnexpectedEof`, or with `UnknownPeer` if it does not trust the server in some layer.
- `C80_server_ends` (`Props/LayerExchange.lean:298`): C80, the end is reported, the server.
- `C80_write_sessions` (`Props/LayerExchange.lean:324`): **C80, what follows.** The halves that the set-up gives are those that C77 starts with: with these keys and numbers.
- `C80_read_sessions` (`Props/LayerExchange.lean:346`): C80, what follows, the halves to read.
- `C80_client_nonces` (`Props/LayerExchange.lean:423`): **C80, nonces.** In the set-up the client encrypts in each layer only with the key of its session, and package number `j` with the nonce for `j`.
- `C80_server_nonces` (`Props/LayerExchange.lean:433`): C80, nonces: the server encrypts in each layer one package, number 0, with the secret that both compute, and then only with the key of the session, package number `j` with the nonce for `j`. So it uses no nonce twice with the same key if the two keys are different (the key of the session is random).

## C81 Encrypted layers with an arbitrary peer

Whatever bytes arrive, whatever the socket answers and however it is polled, setting up EncryptedStream over EncryptedStream (to any depth) does not panic. It fails only with a failed write, with UnexpectedEof if the connection is closed, with InvalidData if in some layer a package arrived that does not decipher, or with UnknownPeer and a key that arrived in some layer and is not trusted there. At any time, what a client has sent is its public keys up to some layer, and all layers inside that one are set up with peers it trusts; what a server has sent is its answers up to some layer, and in all these layers it has heard a key that it trusts. A side that completes has in every layer heard a trusted key; the client's session key is the first 32 bytes deciphered with the secret agreed with that key, and what the peer has put behind it is what the client reads first; both halves use these sessions.

- `C81_client_outcome` (`Props/LayerPeer.lean:38`): **C81, the client's outcome.** Whatever arrives, whatever the socket answers and however often it is polled, a client that sets up any number of encrypted layers in each other does not panic. It fails only with an error of a write to the socket, with `WriteZero` if the socket takes nothing, with `UnexpectedEof` if the connection is closed, with `InvalidData` if in some layer a package has arrived that does not decipher, or with `UnknownPeer` and a key that has arrived in some layer and is not trusted there.
- `C81_server_outcome` (`Props/LayerPeer.lean:52`): C81, the server's outcome: the same; a package that does not decipher can only arrive in a layer that is set up already.
- `C81_client_sends` (`Props/LayerPeer.lean:69`): **C81, what the client sends.** At any time, all that the client has sent is its public keys, from the innermost layer up to some layer: all layers inside that layer are set up, with peers that it trusts, and each key has gone through them with the keys of their sessions. For the layers around it nothing has been sent.
- `C81_server_sends` (`Props/LayerPeer.lean:93`): **C81, what the server sends.** At any time, all that the server has sent is its public keys and keys of sessions, from the innermost layer up to some layer, and in all these layers it has heard a key that it trusts; the key of each session has been encrypted with the secret agreed with that peer, and has gone through the sessions of the layers inside.
- `C81_client_done` (`Props/LayerPeer.lean:108`): **C81, the client's connection.** If the set-up completes, then in every layer the client has heard a key that it trusts, and then packages under the secret agreed with it, with a key of 32 bytes, which is that of the session; the client writes and reads with these keys. What the peer has put into the last package after it is the first that will be read.
- `C81_server_done` (`Props/LayerPeer.lean:124`): **C81, the server's connection.** The same for the server, with the keys that it made.
- `C81_client_trusts` (`Props/LayerPeer.lean:140`): C81: so, whoever the peer is, a client with a connection has heard a key that it trusts in every layer.
- `C81_server_trusts` (`Props/LayerPeer.lean:166`): C81, the same for a server.

## C82 A layered connection from the first byte to the last event

Client and server connect through EncryptedStream over EncryptedStream (to any depth) over one connection, and then emit events in both directions, each as soon as its own protocol_connect or protocol_accept has returned (the other side may still be setting up). Whatever the sockets answer, what a side has put on the wire is its part of the set-up followed by a prefix of the packages of its events, in the order in which the emits got the connection, and all of them when no emit is under way or has failed. Each side reads exactly the events of the other whose packages have arrived completely, in order, and then waits, or sees UnexpectedEof if the connection is closed: nothing of the set-up is taken for an event or the other way round, also if both arrive in the same piece. Emits do not panic and fail only with an error of the socket, or WriteZero if it takes nothing; if the socket takes something in each poll, each emit ends.

- `C82_emitted` (`Props/LayerSession.lean:67`): **C82, what is emitted.** Whatever the write halves have carried before (see C80 and C81 for what a set-up leaves): events that are emitted over them go to the wire, in the order in which their emits got the connection, after what is there already, each in one package of each layer, with the numbers that the layers are at. Whatever the socket answers, what is on the wire is a prefix of that, and all of it if no emit is under way or has failed. No emit panics, and one fails only with an error of the socket, or with `WriteZero` if it takes nothing.
- `C82_released` (`Props/LayerSession.lean:86`): C82, a failed emit lets go of the connection: nothing is under way after it.
- `C82_finishes` (`Props/LayerSession.lean:116`): **C82, progress.** An emit that is under way ends with success if it is polled often enough, and the socket takes at least one byte at each poll and does not fail: as many polls as bytes are missing on the wire, and one. Nothing else than these polls is needed, so the next emit gets the connection.
- `C82_read` (`Props/LayerSession.lean:146`): **C82, what is read.** The read halves that a set-up leaves, and of the packages of some events a prefix that is still to be read: the receive loop reads exactly the events whose packages are complete, in order, and then waits, or sees the end of the stream if the connection is closed.
- `C82_to_server` (`Props/LayerSession.lean:163`): **C82, client to server.** Client and server set up any number of encrypted layers over one connection, and then the client emits events: at any time when it is done with its own part, the server may still be setting up, or not. Whatever the sockets answer to either side and however the bytes arrive: the server's receive loop reads exactly those events whose packages have arrived completely, in the order in which their emits got the connection, and then waits, or sees the end of the stream if the connection is closed. Nothing of the set-up is taken for an event, and no event for a part of the set-up.
- `C82_to_client` (`Props/LayerSession.lean:206`): **C82, server to client.** The same in the other direction: the server emits when it is done, although the client may still be waiting for the last key.

## C83 A server with encrypted layers

A server whose listener is an EncryptedListener over an EncryptedListener (to any depth) serves its clients in the order in which they connect. It serves only clients with whom the key exchanges of all layers have completed, that is, that have presented a trusted key in every layer, and talks to each with the session keys made for that client. start returns an error only if binding fails. It returns Ok, and then nobody is served any more, only after an error of the socket's accept or a failed set-up: a failed write, a connection closed early, a package that does not decipher in some layer, or an untrusted key in some layer; and a client that is unknown in some layer does end it. A client that is trusted and sends its part is served, in whatever pieces it sends, and all clients that wait can be served if they all do so; under fair scheduling all of them are served in the end. The server stays for ever in the set-up with a client that sends its part only if the socket of this client takes nothing any more. A client that is trusted but falls silent at any point of the set-up blocks all others for as long as its connection stays open.

- `C83_fair_served` (`Props/FairLayer.lean:71`): **C83, fair scheduling.** In every fair execution of a server with encrypted layers: everyone who connects is served, in the order of connecting, unless the server ends (`C83_ends_only`), or stays for ever in the set-up with one client.
- `C83_stuck_only` (`Props/FairLayer.lean:227`): **C83, why it is stuck.** The server stays for ever in the set-up with a client that sends all of its part only if, from some time on, the socket of this client does not take anything.
- `C83_fair` (`Props/FairLayer.lean:253`): **C83, all are served in the end.** In every fair execution in which binding and `accept` do not fail, no socket fails, every client that connects sends all of its part and is trusted in every layer, and the sockets of clients take something again and again: everyone who connects is served, in the order of connecting.
- `C83_served_in_order` (`Props/LayerServer.lean:24`): **C83, in order.** Until the first error, every client that has connected is served, is the one in the set-up, or waits to be accepted, in the order in which they connected, each once. Also after an error, those who are served are the first that have connected.
- `C83_served` (`Props/LayerServer.lean:31`): **C83, the connections.** With every client that is served a set-up of all layers has completed: in every layer the server has heard a key that it trusts, and it writes and reads with the keys that it made for this client.
- `C83_keys` (`Props/LayerServer.lean:43`): C83, the keys: with every client the server does one key exchange for each of its layers, with its own key of this layer and a session key made for this client and this layer.
- `C83_ends_only` (`Props/LayerServer.lean:50`): **C83, why it ends.** `start` returns an error only if binding has failed. It returns `Ok` only after an error of the socket's `accept`, or when the set-up with a client has failed: a write to that client failed, or its socket took nothing; it closed its connection; in some layer it sent a package that does not decipher; or in some layer it sent a key that is not trusted there.
- `C83_ended` (`Props/LayerServer.lean:74`): C83: when it has ended, nobody is served any more.
- `C83_serves` (`Props/LayerServer.lean:84`): **C83, a client is served.** A client that sends all of its part, in whatever pieces, and whom the server trusts in every layer, is served, and the server goes on to accept the next, after as many polls in which the socket takes something as it has bytes to send, the socket has answers to read, and twice the layers.
- `C83_stranger_ends` (`Props/LayerServer.lean:97`): **C83, a stranger ends it.** If the server does not trust such a client in some layer (also if it does in the layers inside), the server ends, and serves nobody any more.
- `C83_serves_all` (`Props/LayerServer.lean:110`): **C83, all are served.** If all clients that wait send all of their parts and are trusted, they can all be served, one after the other, by accepting and polling alone, whatever the clients that are served already do or do not do.
- `C83_blocked` (`Props/LayerServer.lean:170`): **C83, a silent client blocks all others.** A client whom the server trusts in every layer, and who keeps to the protocol but stops at any point before the end, in any layer, and does not close the connection: as long as its socket does not fail, nobody else is ever served, however many connect and however often the server is polled.
- `C83_one_layer` (`Props/ServerOne.lean:12`): **C83, one layer.** Whatever a server with one encrypted layer does, the encrypted server of Model/Server.lean can do, when its surroundings do the same (the clients connect in the same order, polls get the same answers): it is at the same place then, the same clients wait, and the same are served, with the same sessions.
- `C83_no_layer` (`Props/ServerOne.lean:38`): **C83, no layer.** Whatever a server whose listener has no encrypted layer does, the plain server of Model/Server.lean does, when the same clients connect to it and the socket does the same: it is at the same place then, the same clients wait, and the same are served (one that was accepted just now, too). And whatever the plain server does, this one can do.

## C84 What an attacker can achieve against encrypted layers

A client or server has connected through EncryptedStream over EncryptedStream (to any depth), and all bytes that reach it are chosen by an attacker, from the first byte of the set-up on; the attacker may hold the keys of all layers but the outermost. If the attacker cannot make packages of the outermost layer (of what that layer reads, only the packages of the sender decipher, each with its own number; for a client also: under the secret agreed with the trusted key, only the server's package with the session key), then the events that are delivered are a prefix of those the sender has sent: none is altered, dropped from the middle, repeated or moved, and nothing of the set-up or of inner layers is taken for an event. Then there is an error or waiting. If the attacker also uses the packages of the other direction, each event delivered is one that the sender or the receiver itself has sent at that place.

- `C84_server_prefix` (`Props/LayerAttack.lean:158`): **C84, to the server.** A server has set up any number of encrypted layers in each other, and the bytes that it has received and will receive are chosen by somebody else, from the first on: he may hold the keys of all layers but the outermost. He only cannot make packages of the outermost session: of what that layer can have read, only the sender's events decipher, each with its own number. Then the server delivers the sender's events from the first on, in order, without repetition or gap, up to some point; there it ends with an error, or waits.
- `C84_client_prefix` (`Props/LayerAttack.lean:165`): **C84, to the client.** The same for a client. Here the packages under the secret that was agreed are needed too: of what the outermost layer can have read, only the package with the key that the server made deciphers under it.
- `C84_server_positions` (`Props/LayerAttack.lean:174`): C84, both directions, to the server: if the attacker may also use the server's own packages of the session (both directions have one key, and both count from 0), each event delivered is one that the client or the server itself has sent at that place.
- `C84_client_positions` (`Props/LayerAttack.lean:184`): C84, both directions, to the client.

## C85 Guards of the shared data

Handlers and other tasks read and write the data of the process through guards of ctx.data (read().await, write().await) and may keep a guard over awaits. Data is read only through a guard and written only through one for writing. While a guard for writing exists there is no other guard; as long as a guard exists nobody else writes, so that two reads through one guard agree; a read returns what was written last. Requests are served in the order in which they are made: exactly those have a guard that are first, or that read with nobody before them that writes. If every guard gets dropped some time then every request is served some time, also of writers when readers keep coming. A task that asks for a second guard while it has one gets it at once exactly if both are for reading and nobody waits to write; otherwise it waits for itself and never gets it.

- `C85_who` (`Props/DataLock.lean:12`): **C85, who has a guard.** Whatever the tasks do: of the requests that were made and not dropped, those have a guard whose turn it is (the first; and if it reads, those after it up to the first that wants to write), and the others wait.
- `C85_exclusive` (`Props/DataLock.lean:27`): **C85, exclusion.** If there is a guard for writing, there is no other guard.
- `C85_undisturbed` (`Props/DataLock.lean:35`): **C85, undisturbed.** As long as a guard exists, data is written through this guard only, and if it is for reading, not at all.
- `C85_reads` (`Props/DataLock.lean:51`): **C85, reads.** What is read under a key is what was written last under it, by whichever guard.
- `C85_guarded` (`Props/DataLock.lean:59`): **C85, with a guard only.** Data is read through a guard whose turn it is, and written through such a guard for writing.
- `C85_second_guard` (`Props/DataLock.lean:81`): **C85, waiting for oneself.** A task that has a guard asks for another. It gets it at once exactly if both are for reading and nobody has asked for a guard for writing. Otherwise it waits as long as it keeps the first guard and the requests for guards that wait are not dropped, whatever happens: it never gets the second guard.
- `C85_fair` (`Props/DataLock.lean:155`): **C85, everybody gets a turn.** If every guard is dropped some time, then every request is answered with a guard some time (or dropped), whatever else the tasks do.

## C86 Dropped emits on connections with encrypted layers

On a connection through EncryptedStream over EncryptedStream (to any depth) callers drop futures of `emit` at any point while they hold the connection, or poll emits that panic because of an earlier drop. The wire is never torn: the bytes on it are a prefix of packages in packages of which each carries the whole frames of one or more of the emitted events, in the order in which their emits got the connection, none twice; frames that wait in the buffer of the outermost layer are whole, too, and less than 1024 bytes. A peer with the same layers reads exactly the events of the packages that have arrived completely, however the socket cuts the bytes, and then waits or sees the end of the stream; it never sees a broken frame or a package that does not decipher. So events can be missing but are never altered, doubled or reordered. While the socket does not fail, a poll of an emit gives no error; it panics only if the flush of a dropped emit is unfinished and 1024 bytes come together in the buffer. A dropped emit releases the connection at once, and an emit that is not dropped comes to its end within as many polls as bytes are still to go, if the socket is ready at each. All in all there are at most 20 bytes for each emit and layer on the wire beside the frames. Each layer encrypts at most one package for each emit, under its own key, with consecutive nonces.

- `C86_wire` (`Props/LayerDrop.lean:62`): **C86, the wire.** Any number of encrypted layers in each other, and any emits are dropped at any point (or panic because of an earlier drop). The wire is never torn: what is on it is a prefix of a sequence of packages in packages, each carrying the whole frames of one or more of the emitted events, in the order in which their emits got the connection, no event twice; numbered by each layer from its own start. The rest of it is in the write halves, and what is in the buffer of the outermost layer is whole frames, too, of events after these.
- `C86_peer_reads` (`Props/LayerDrop.lean:168`): **C86, the peer.** Whatever emits have been dropped, at whatever point: a peer with the same layers to which the bytes have come, or a prefix of them, however the socket cuts them, reads the events of the first packages, all of those that are complete, in the order in which their emits got the connection, each at most once, and then waits, or sees the end of the stream if the socket is closed; it never sees a broken frame or package.
- `C86_loses_at_most` (`Props/LayerDrop.lean:198`): **C86, end to end.** What is read from a connection with nested layers, whatever emits have been dropped, is what was emitted, in order; some of it may be missing, nothing is doubled or changed.
- `C86_poll` (`Props/LayerDrop.lean:205`): **C86, polls.** As long as the socket does not fail, and whatever emits have been dropped before: a poll of the emit that holds the connection returns `Ok`, or is pending with its task registered at the socket, and then bytes have gone to the wire if the socket was ready; or it panics, and this only if the flush of an earlier emit that was dropped is not finished yet and there are 1024 bytes in the buffer together with the new frame. It gives no error.
- `C86_bytes` (`Props/LayerDrop.lean:291`): **C86, bytes.** However emits are dropped, there are never more bytes on the wire than the frames of all emitted events and 20 bytes for each of them in each layer.
- `C86_finishes` (`Props/LayerDrop.lean:305`): **C86, an emit comes to its end.** Whatever emits have been dropped: if the emit that holds the connection is polled again and again, each time the socket being ready at first, then it is over (it has returned `Ok`, or it has panicked) at the latest after as many polls as bytes could still go to the wire.
- `C86_released` (`Props/LayerDrop.lean:356`): **C86, the connection is released.** Emits are not locked out by a dropped one: as soon as the emit that holds the connection is dropped the next one can get it; the drop itself writes nothing.
- `C86_nonces` (`Props/LayerDrop.lean:364`): **C86, nonces.** Also if emits are dropped: each layer encrypts at most one package for each emit, only with its own key, and package number `j` with the nonce for the number `j` after the packages it had sent before; so no nonce occurs twice among 2^64 packages.

## C87 What becomes of each event when emits on an encrypted connection are dropped

On an encrypted connection with any number of layers, whose callers drop emits at any point, the fate of an event is decided by the first poll of its emit and by what dropped emits have left behind: if nothing is unfinished, the event goes out, in one package with all events that wait; if the write of a dropped emit is unfinished, the event is lost although its emit returns Ok; if only the flush of a dropped emit is unfinished, the event waits for the next package, if all that waits comes to less than 1024 bytes, and else the poll panics, and the event is lost with all that wait; an emit dropped before its first poll loses its event. So at each time every event is exactly one of sent, waiting, lost or not yet polled; the sent ones are on the wire in their packages as far as these are written, the waiting ones are the contents of the buffer, and a peer with the same layers reads exactly the sent ones. Sent and lost are final. A poll panics exactly in the case named, and writes nothing then. After an emit has returned Ok nothing is unfinished, and the next emit that is not dropped sends its event and all that wait. Violated: after a dropped flush, emits of events of 1024 bytes or more panic one after the other, for ever, and no byte goes to the wire until a smaller event is emitted.

- `C87_kept` (`Props/Ledger.lean:13`): **C87, a ledger can always be kept.** Whatever the callers, the transport and the receiver do, there is a ledger of it (and a ledger is only ever of something that can happen).
- `C87_wire` (`Props/Ledger.lean:69`): **C87, the ledger is right: the wire.** The bytes on the wire are the packages of the ledger, as far as they have been written, and all of them if nothing is unfinished; in the buffer are the frames of the events that wait; what has been read is the first of the events that the ledger says are sent.
- `C87_account` (`Props/Ledger.lean:83`): **C87, the ledger is complete.** Every event whose emit has got the connection is in the ledger once: it is sent, it waits, it is lost, or its emit has not been polled yet. What is sent or waits is in the order of the emits.
- `C87_panics` (`Props/Ledger.lean:95`): **C87, exactly when an emit panics.** At its first poll, if the flush of an emit that was dropped is unfinished and the frames that wait and the new one are 1024 bytes or more. Then nothing is written.
- `C87_reads` (`Props/Ledger.lean:109`): **C87, what is sent is read.** If nothing is unfinished, a peer with the same layers to which all bytes have come, however the socket cuts them, reads exactly the events that the ledger says are sent, and then waits, or sees the end of the stream.
- `C87_final` (`Props/Ledger.lean:135`): **C87, the ledger is final.** What is sent stays sent, in the same packages, and what is lost stays lost, whatever happens.
- `C87_undisturbed` (`Props/Ledger.lean:218`): **C87, after an `Ok` all is well.** If nothing is unfinished (at the beginning, and whenever an emit has just returned `Ok`), an emit that is polled to its end does not panic, and then all is on the wire: the event and all that waited for it. And nothing is unfinished again.
- `C87_violated_stuck` (`Props/Ledger.lean:246`): **C87, large events panic for ever.** (A user would expect that a panic is over with its emit.) If the flush of a dropped emit is unfinished, then, as long as all events emitted have frames of 1024 bytes or more, however many, each of their emits is lost: it panics when it is polled. Not a byte goes to the wire any more, not even the rest of the package of the dropped emit.

## C88 Write errors on connections with encrypted layers

On a connection with any number of encrypted layers over a transport that can fail at any time, with emits that are awaited one after the other: no emit panics, also not after errors. On the wire is, of each emit that has got the connection, in this order, a beginning of the packages in packages due for its event (all of them, if it has returned Ok); each layer gives consecutive numbers to its packages, also across errors, so that no nonce is used twice, and nothing of a failed emit is left in any layer that a later emit would send. A poll of an emit adds to the wire if the socket is ready, and an error that an emit returns is one that the socket has answered to this poll (WriteZero if it took nothing). The packages of emits before the first failure are on the wire, complete. If only that deciphers which the innermost layer has encrypted, the peer reads exactly the events whose packages have arrived one after the other from the first on; then an error (InvalidData), if a whole package follows by its length, and else it waits (UnexpectedEof at the end of the stream). Violated: after an emit has failed in the middle of its packages, later emits return Ok, but their events are never read.

- `C88_order` (`Props/LayerFail.lean:70`): **C88, the order.** The emits whose events are on the wire are those that have got the connection, in this order.
- `C88_wire` (`Props/LayerFail.lean:104`): **C88, the wire.** Whatever the socket answers, errors included: no emit panics. On the wire are, of each emit that has got the connection, one after the other, a beginning of what is due for it: its event in packages in packages, each with the next number of its layer; all of it, if the emit has returned `Ok`. So an emit that has failed leaves nothing behind in any layer that a later emit would send.
- `C88_poll` (`Props/LayerFail.lean:118`): **C88, polls.** A poll of the emit that has the connection adds to the wire. Afterwards the emit still has the connection, and if the socket was ready then bytes have gone; or it is over, with `Ok`, or with an error that is among the answers of the socket to this poll (`WriteZero` if it took nothing). This holds as well after earlier emits have failed.
- `C88_nonces` (`Props/LayerFail.lean:126`): **C88, nonces.** Also if emits fail: each layer encrypts one package for each emit, under its own key, with consecutive numbers, so no nonce is used twice for the first 2^64 of them.
- `C88_before` (`Props/LayerFail.lean:163`): **C88, before a failure.** If the first `j` emits have returned `Ok`, their packages are on the wire, complete and first.
- `C88_read` (`Props/LayerFail.lean:199`): **C88, reading.** The peer has the same layers and receives a beginning of the wire, in pieces of any size. If of the wire only that deciphers which the innermost layer has encrypted, each package with its own number, then it reads exactly the events whose packages have arrived one after the other from the first on. If a whole package follows (by its length), the next read gives an error (`InvalidData`); else it waits, or, at the end of the stream, gives `UnexpectedEof`.
- `C88_violated_after` (`Props/LayerFail.lean:245`): (A user would expect that an event whose emit has returned `Ok` arrives, or that after an error all further emits fail.) Once emit number `j` has failed in the middle, so that what is on the wire does not begin with the packages up to its own, the peer reads none of the events from there on, whatever the later emits have returned.

## C89 Emits that are dropped and emits that fail, on the same connection

On a connection with any number of encrypted layers, emits are dropped at any point and the transport fails at any point, in any order. A ledger kept only from what callers do and are told says of every event whether it is sent (and in which package), waits, or is lost; every emitted event is in it exactly once, and what is sent stays sent, what is lost stays lost. On the wire are the packages of the ledger, one after the other, with consecutive numbers; of each a beginning, and all of it unless a poll has failed while it was the last or it is unfinished. No nonce is used twice. A poll is pending, with progress if the socket was ready, or the emit is over: with Ok, with an error that the socket has answered to this poll, or with a panic, exactly if it is its first poll, the flush of a dropped emit is unfinished and 1024 bytes or more are waiting with the new frame. The peer reads exactly the events of the packages that have arrived whole, one after the other, from the first on. Violated: after a package is torn by an error nothing is read any more although later emits return Ok; and an event whose emit has returned an error can nevertheless be sent, with the next one.

- `C89_kept` (`Props/LayerAny.lean:28`): **C89, a ledger can always be kept.** Whatever the callers and the transport do, there is a ledger of it (and a ledger is only ever of something that can happen).
- `C89_wire` (`Props/LayerAny.lean:124`): **C89, the wire.** Emits are dropped at any point, and polls fail at any point, in any order. On the wire are the packages of the ledger, one after the other, each with the frames of its events, in packages of the other layers, with consecutive numbers; of each at least a beginning, and all of it unless a poll has failed while it was the last (or it is the last one and unfinished). In the buffer are the frames of the events that wait, less than 1024 bytes.
- `C89_account` (`Props/LayerAny.lean:141`): **C89, the ledger is complete.** Every event whose emit has got the connection is in the ledger once: it is sent, it waits, it is lost, or its emit has not been polled yet. What is sent or waits is in the order of the emits.
- `C89_poll` (`Props/LayerAny.lean:153`): **C89, polls.** A poll of the emit that has the connection, whatever has been dropped and has failed before, adds to the wire. It is pending, and then bytes have gone if the socket was ready; or the emit is over: with `Ok`; or with an error that is among the answers of the socket to this poll (`WriteZero` if it took nothing); or with a panic, and this exactly if it is the first poll of the emit, the flush of a dropped emit is unfinished and the frames that wait and the new one are 1024 bytes or more. Then nothing is written.
- `C89_final` (`Props/LayerAny.lean:193`): **C89, the ledger is final.** What is sent stays sent, in the same packages; what is lost stays lost; what is broken stays broken.
- `C89_nonces` (`Props/LayerAny.lean:225`): **C89, nonces.** Whatever is dropped and fails: each layer encrypts one package for each package of the ledger at most, only with its own key, and package number `j` with the nonce for the number `j` after the packages it had sent before; so no nonce occurs twice among 2^64 packages.
- `C89_read` (`Props/LayerAny.lean:337`): **C89, reading.** The peer has the same layers and receives a beginning of the wire, in pieces of any size. If of the wire only that deciphers which the innermost layer has encrypted, each package with its own number, then it reads exactly the events of the packages that have arrived whole, one after the other, from the first on. If more whole packages follow (by their length), the next read gives an error (`InvalidData`); else it waits, or, at the end of the stream, gives `UnexpectedEof`.
- `C89_bytes` (`Props/LayerAny.lean:430`): **C89, bytes.** Whatever is dropped and fails, there are never more bytes on the wire than the frames of the events whose emits got the connection and 20 bytes for each of them in each layer.
- `C89_finishes` (`Props/LayerAny.lean:445`): **C89, an emit comes to its end.** Whatever has been dropped and has failed: if the emit that has the connection is polled again and again, each time the socket being ready at first (whatever it answers then), then it is over (with `Ok`, with an error of the socket, or with a panic) at the latest after as many polls as bytes could still go to the wire.
- `C89_before` (`Props/LayerAny.lean:467`): **C89, before a failure.** If no poll has failed while one of the first `j` packages was the last (and they are not unfinished), then these packages are on the wire, complete and first.
- `C89_violated_after` (`Props/LayerAny.lean:505`): (A user would expect that an event whose emit has returned `Ok` arrives, or that after an error all further emits fail.) Once package number `j` is torn, so that what is on the wire does not begin with the packages up to this one, the peer reads none of the events of it and of the later ones, whatever the later emits have returned.
- `C89_violated_error_sent` (`Props/LayerAny.lean:579`): (A user would expect that an emit that has returned an error has sent nothing.) The flush of a dropped emit is unfinished, and at its first poll the next emit, of a small event `e`, gives an error. Its event is nevertheless not gone: it stays in the buffer, and the next emit, when it returns `Ok`, has sent it, in one package with its own event.
- `C89_without_drops` (`Props/LayerAny.lean:626`): **C89, without drops.** If no emit is dropped this is the connection of C88.
- `C89_without_errors` (`Props/LayerAny.lean:646`): **C89, without errors.** If no poll fails this is the sending side of the connection of C86 and C87.

## C90 Reading from a transport that fails

A connection, plain or with any number of encrypted layers, whose transport returns an error from a read at some point (a reset connection, say): it hands on exactly the events it would have handed on if the stream had ended there, that is, for a peer that sent frames or packages, exactly the events that have arrived completely, in order, however the bytes were cut; then the reading ends with exactly that error, unless a frame or package that is not valid came before, which then ends it as it would without the error. Whatever the transport would give after the error is never read. Violated: the read half of an encrypted stream that has returned an error panics if it is polled again, instead of returning an error or the end of the stream.

- `C90_read` (`Props/ReadFail.lean:17`): **C90, an error is as an end.** Any number of layers, any bytes, also garbage: if the transport fails after it has given certain answers, then the connection reads the same events as if the stream had ended there, or as if nothing came any more. If the connection then would have waited for more, it ends with the error of the transport, no other; if it ends for another reason (a frame or a package that is not valid), that is the same reason.
- `C90_after` (`Props/ReadFail.lean:29`): **C90, nothing after the error.** Whatever the transport would answer after the error, also if it has recovered and more bytes come: the connection does not read it.
- `C90_plain` (`Props/ReadFail.lean:53`): **C90, a plain connection.** Events back to back, and the transport fails somewhere in the frame of the next (or between two frames): exactly the events whose frames are complete are read, in order, then the connection ends with the error.
- `C90_peer_reads` (`Props/ReadFail.lean:69`): **C90, encrypted layers.** The bytes that come from the socket before it fails are a prefix of what the other side has put on the wire, however it cuts them, and whatever emits were dropped there: the peer reads exactly the events of the packages that have come completely, in order, then its connection ends with the error.
- `C90_violated_again` (`Props/ReadFail.lean:85`): (A user would expect an error again, or the end of the stream.) A poll of the read half of an encrypted stream, over whatever transport, that has returned an error is the last one: the next one panics.

## C91 Setting up encrypted layers over a transport that fails

A client that connects, or a server that accepts, with any number of encrypted layers, and whose transport returns an error from a read during the set-up: up to there it has sent exactly what it would have sent over a connection that is closed, or stays silent, at that point; whatever arrived before, it does not panic, and it fails with exactly the error of the transport (never with UnexpectedEof in its place), unless a write has failed, or a package that does not decipher or an untrusted key came before, which it then reports. If the error comes before all that an honest peer sends has arrived, the set-up does not wait for ever but reports the error; if it comes later, the set-up completes, and what is read then is what arrived, followed by the error. A connection is only ever given with peers whose keys are trusted in every layer.

- `C91_client` (`Props/SetupFail.lean:48`): **C91, an error is as an end, the client.** Any number of layers, any peer, and whatever arrives: a client whose transport fails has sent what it would have sent over one that is closed there, or silent. After each poll, it is where these would be: pending, or done, with the same half to write, and reading alike; or failed with the same error. Only where the one over the silent transport waits for more, and so the one over the closed transport has failed with `UnexpectedEof`, it has failed with the error of the transport.
- `C91_server` (`Props/SetupFail.lean:55`): **C91, an error is as an end, the server.**
- `C91_client_outcome` (`Props/SetupFail.lean:63`): **C91, the client's outcome.** Whatever arrives before the transport fails: the client does not panic, and it fails only with an error of a write to the socket, with `WriteZero` if the socket takes nothing, with the error of the transport, with `InvalidData` if in some layer a package has arrived that does not decipher, or with `UnknownPeer` and a key that has arrived in some layer and is not trusted there. So `UnexpectedEof` is not reported in place of the error.
- `C91_server_outcome` (`Props/SetupFail.lean:88`): C91, the server's outcome: the same.
- `C91_client_completes` (`Props/SetupFail.lean:113`): **C91, a late error, the client.** If the transport fails only after all that the server sends for the set-up has arrived, the client that trusts the server is done, as in C80.
- `C91_server_completes` (`Props/SetupFail.lean:124`): C91, a late error, the server.
- `C91_client_reports` (`Props/SetupFail.lean:135`): **C91, an early error, the client.** If the transport fails before all that the server sends has arrived, the client does not wait for ever: it fails with that error, or with `UnknownPeer` if it does not trust the server in some layer.
- `C91_server_reports` (`Props/SetupFail.lean:157`): C91, an early error, the server.
- `C91_client_trusts` (`Props/SetupFail.lean:179`): **C91, trust.** Whenever the transport fails: a client that has a connection has heard a key that it trusts in every layer.
- `C91_server_trusts` (`Props/SetupFail.lean:188`): C91, trust, the server.

## C92 Shutting down encrypted connections

The user of an encrypted stream (with any number of encrypted layers) shuts it down as an AsyncWrite after events have been emitted over it: every layer is flushed, then the socket is asked to shut down, never before; all that was emitted is on the wire; errors of the socket are passed on. If the socket is willing, polling the shutdown once more than there are layers completes it. Violated: after the flush of each layer the poll returns Pending without having asked anybody for a wake-up, so shutdown().await never completes with Ok and the socket is never asked; and from the first of these polls on, nothing that is written is ever sent, every flush and every emit panics, and polls after the completion panic. (Without layers shutdown().await asks the socket at once and returns its first answer.)

- `C92_polls` (`Props/LayerShutdown.lean:18`): **C92, polls.** A connection with any number of encrypted layers, over which events have been emitted, is polled for its shutdown, any number of times, whatever the socket answers: the results are as specified; in particular each layer needs a poll of its own, after which nobody has been asked for a wake-up, and the socket is only asked to shut down after all of them. Nothing goes to the wire: all that was emitted is there already.
- `C92_completes` (`Props/LayerShutdown.lean:48`): **C92, completion.** If the socket is always willing, the shutdown completes in the poll after as many as there are layers, provided that whoever polls does so without being woken; the socket is asked in the last poll only.
- `C92_plain_await` (`Props/LayerShutdown.lean:55`): C92, for comparison: without layers `shutdown().await` asks the socket in its first poll, writes nothing and returns the first answer of the socket.
- `C92_violated_await` (`Props/LayerShutdown.lean:74`): **C92 does not hold** as one expects it: `shutdown().await`, which is polled only when it has been woken, never shuts the socket down and never returns `Ok`. As soon as the socket is done with the flush, the task waits for a wake-up that nobody has been asked for; before that it waits for the socket, or gets its error.
- `C92_violated_after` (`Props/LayerShutdown.lean:119`): **C92, afterwards.** Once the first flush of the shutdown is done, nothing is sent any more, whatever is written, flushed or shut down; every flush panics, and so does every emit; bytes that are written are accepted as long as fewer than 1024 are in the buffer, and the write panics otherwise.
- `C92_one_layer` (`Props/LayerShutdown.lean:146`): **C92, one layer.** With one layer this is `poll_shutdown` of C53.

## C93 Keys and nonces over the whole life of a connection with encrypted layers

Whoever the peer is and whatever it sends, and whatever is then done with the connection (writes, flushes, shutdowns in any order; emits that are dropped, fail or panic): in every layer, a server encrypts first the key of the session, exactly once, with the secret agreed with a peer it trusts there and the nonce for 0, and everything else with the key of the session, package number j with the nonce for j; a client encrypts everything with the key it has heard under the secret agreed with a peer it trusts, package number j with the nonce for j. So, up to 2^64 packages, no side uses a pair of key and nonce twice in a layer (if the key of the session is not by chance the agreed secret). The two sides of a session use the same key and the same nonce for packages of the same number, and the keys of all sessions between the same two parties are encrypted with the same key and nonce. (A user would expect that neither happens.)

- `C93_server` (`Props/Nonces.lean:252`): **C93, the server.** Whatever arrives from whatever peer, however the set-up of any number of layers is polled, and whatever polls (writes, flushes, shutdowns, in any order, of emits that go on, are dropped, fail or panic) the connection gets then: in each layer, the first thing that the server has encrypted is the key of the session, once, with the secret agreed with a peer that it trusts in that layer, and the nonce for 0; and all else with the key of the session, number `j` with the nonce for `j`.
- `C93_server_setup` (`Props/Nonces.lean:259`): C93, the server, while it sets up its layers: the same; a layer may have encrypted nothing yet.
- `C93_server_failing` (`Props/Nonces.lean:266`): C93, the server, over a transport that fails.
- `C93_client` (`Props/Nonces.lean:275`): **C93, the client.** Whatever arrives from whatever peer, and whatever is done with the connection: in each layer the client has encrypted everything with one key, number `j` with the nonce for `j`; that key is the one that it has heard, with the secret agreed with a peer that it trusts.
- `C93_client_setup` (`Props/Nonces.lean:287`): C93, the client, while it sets up its layers: the same; a layer may have encrypted nothing yet.
- `C93_client_failing` (`Props/Nonces.lean:294`): C93, the client, over a transport that fails. The keys are the same whatever is done with the connection.
- `C93_server_distinct` (`Props/Nonces.lean:303`): **C93, no pair twice.** So, if the key of the session is not by chance the secret agreed with the peer, a server uses no pair of key and nonce twice in a layer, for up to 2^64 packages.
- `C93_client_distinct` (`Props/Nonces.lean:315`): C93, no pair twice: nor does a client, whatever the peer has made it use as a key.
- `C93_directions` (`Props/Nonces.lean:325`): **C93, the two directions.** Client and server have set up any number of layers with each other, and then do whatever they do. In each layer, the client's package number `i` and the server's package number `j` of the session are encrypted with the same key, and with the same nonce exactly if the numbers are the same, modulo 2^64. (A user would expect that no pair of key and nonce is used by both sides.)
- `C93_sessions` (`Props/Nonces.lean:338`): **C93, two sessions.** A server accepts two connections, in a layer of each the same client. There it encrypts the keys of both sessions with the same key and nonce. (A user would expect that no pair of key and nonce is used twice.)

## C94 Wake-ups, and reads of any size, on connections with encrypted layers

On a connection with any number of encrypted layers, in whatever state, a pending poll to write or flush, and so a pending emit, has registered its task at the socket. A pending poll to read has done so if and only if every layer is in the middle of a package; it misses its wake-up if and only if some layer has just emptied a package without filling the buffer it was given. So read_exact calls return the next bytes as long as each needs no more than what is left of the last package and the next package; the first that needs more never returns, even if all its bytes, or the end of the stream, are there. And if a peer puts the beginning of a package of one layer into packages of the layer below it such that its length is torn, or that it is longer than two of them, no read of that layer ever returns. (A user would expect that a read returns when its bytes are there, and that a layer does not depend on the packages of the layers below it. The library's own traffic is not affected, see C77.)

- `C94_writes_woken` (`Props/Wakeups.lean:11`): **C94, writing.** A poll to write or to flush any number of encrypted layers that is pending has registered its task at the socket, in whatever state the layers are and whatever the socket answers.
- `C94_emits_woken` (`Props/Wakeups.lean:16`): C94, writing: so a pending emit is woken, wherever it is.
- `C94_read_woken_iff` (`Props/Wakeups.lean:40`): **C94, reading.** Exactly when a pending poll to read misses its wake-up: it is woken if every layer is in the middle of a package, and it is not woken if some layer has just emptied a package, without having filled the buffer it was given, whatever there is still to be read.
- `C94_reads` (`Props/Wakeups.lean:119`): **C94, reads of any size.** The packages with the plaintexts `ms` are what has come over a connection with any number of layers, however the socket cuts them and however often reads have to wait. Then `read_exact` calls of the sizes `ns`, one after the other, give exactly what `readsGive` says: as long as a read needs no more than what is left and the next package, it returns the next bytes; the first that needs more never returns, although all bytes are there.
- `C94_violated` (`Props/Wakeups.lean:124`): **C94, the loss** (a user would expect that a read returns when its bytes are there): a read that wants more than the first package, and more packages, with everything wanted, have come.
- `C94_violated_torn` (`Props/Wakeups.lean:143`): **C94, torn packages** (a user would expect that layers do not depend on the packages of the layers below them): packages `p` and `q` of an inner layer have come that carry the beginning of a package of the layer around it. If the length of that package (4 bytes) is not all in `p`, or the package is longer than `p` and `q` together, then no read of the layer around it ever returns, whatever else has come.

## C95 Handlers of a connection run side by side

An event that is not a reply to a request being listened for and not an End event starts its handler as soon as the receive loop reads it, whatever the other handlers are doing: no event waits for the handler of an earlier one. So, in every state in which a connection is being read, any number of handlers can run at the same time (the library sets no limit), and their answers can be written in any order, whatever they return: the order of requests says nothing about the order of the answers. A running handler can always return and have its answer written, also when the receive loop of its connection is blocked, has ended or was stopped, and this affects no other handler or connection.

- `C95_starts_at_once` (`Props/Concurrent.lean:21`): **C95: a handler is started at once.** Whatever the other handlers are doing, however many there are: the receive loop, when it reads, takes the next event, and if that is not a reply to a request that is still listened for and not an End event, its handler is started in the same step; no other handler is affected, and the receive loop goes on reading.
- `C95_can_always_return` (`Props/Concurrent.lean:53`): **C95: a handler does not wait for anything else.** In every state - whatever the other handlers, the requests and the receive loops are doing, also when the receive loop of its connection is blocked, has ended or was stopped - a running handler of the user can return any result, and then its answer can be written; no other handler and no other connection is affected by that.
- `C95_any_number_in_any_order` (`Props/Concurrent.lean:166`): **C95: any number of handlers run at the same time, and their answers are written in any order.** In every state of an endpoint in which the receive loop of a connection is reading: let any events arrive that start handlers of the user. Then, with nothing else happening, all their handlers get to run at the same time (so there is no bound on how many do), and whatever they return, in whatever order they return, their answers can be written in that order. The order in which requests were made says nothing about the order of the answers.

## C96 Emitted events start handlers exactly once, in order

Between two endpoints, joined by any number of plain or encrypted connections: of the events that one side emits on a connection with the connection's context, the other side starts exactly one handler each, in the order in which they were emitted, and at any time those whose handlers have been started are the first ones, with none left out; the handler runs the callback registered for the event's name in its namespace (or globally, if the namespace is not registered). Under fair scheduling a handler is started for every one of them, unless the other side stops reading the connection. On encrypted connections on which emits are dropped some are left out, but the order stays and none is handled twice. Between two connections there is no such order.

- `C96_in_order` (`Props/OneWay.lean:48`): **C96: exactly once, in order.** Two endpoints joined by any number of connections, whatever they do: of the events emitted by one side on a connection that refer to no other event (and are not End events), those for which the other side has started handlers are the first ones; for each of them one handler was started, in the order in which the events were emitted, with none left out.
- `C96_once` (`Props/OneWay.lean:56`): **C96: each handler is started once.**
- `C96_callback` (`Props/OneWay.lean:105`): **C96: the callback.** The handler started for an unprompted event runs the callback that is registered for its name (in its namespace if that is registered, otherwise globally).
- `C96_emitted` (`Props/OneWay.lean:112`): **C96: what `emit` sends.** An event emitted on the context of a connection is unprompted; and only events emitted by handlers with their context, and final answers, are not.
- `C96_no_order_between_connections` (`Props/OneWay.lean:128`): **C96: connections are independent.** There is no such order between connections: an event emitted on one connection, after another one was emitted on another connection to the same endpoint, may start its handler before it.
- `C96_over_bytes` (`Props/OneWay.lean:151`): **C96, over the bytes.** The same for two endpoints joined by plain and encrypted connections (in any number of layers), however the bytes are written, cut, delayed and delivered.
- `C96_eventually` (`Props/OneWay.lean:158`): **C96, nothing is left out for ever.** If the emitters, the transport, the receive loops and the handlers are scheduled fairly, then for every unprompted event that is emitted a handler is started on the other side, unless that side stops reading the connection.
- `C96_lossy` (`Props/OneWay.lean:179`): **C96, with loss.** Over connections that lose events (C78): the unprompted events for which handlers are started are some of those emitted, in the order of emission, for each at most one handler.
- `C96_dropped_over_bytes` (`Props/OneWay.lean:187`): **C96, with dropped emits, over the bytes.** The same down to the bytes, on connections with any number of encrypted layers on which emits are dropped at any point (and others on which none is dropped that holds the connection).

## C97 Connections of limited capacity: when two endpoints wait for each other for ever

If the connections between two endpoints hold only so much, so that writing an event waits for room, then everything the endpoints can get to see is what they can get to see without that limit. Whoever waits for room on a connection can get it by nothing but the receive loops of the other side going on and the replies there being read, without anybody writing anything. But the receive loop of a connection stops while a reply stream has 8 unread replies (C25); so if on both sides of a connection a reply stream is not being read and the connection is full in both directions, nothing is written or dealt with on it by either side until one of these two streams is read, dropped or times out, or the connection is stopped: if both readers first want to write something on the connection, they wait for ever. For every capacity two endpoints can get there just by replying to each other faster than the streams are read. Even then, every pending await_reply or stream_replies (whose connection is still read on both sides and whose handler has not panicked) can still get its answer by nothing but the receive loops, handlers and readers going on, if the connections take any event when they are empty. (A user would expect that two sides that are both only writing and reading cannot block each other for ever.)

- `C97_refines` (`Props/Bounded.lean:12`): **C97, refinement.** Waiting for room adds nothing to what two endpoints can get to see: all properties of two joined endpoints carry over.
- `C97_write_gets_through` (`Props/Bounded.lean:36`): **C97: who waits for room gets it, if the other side reads.** In every state of two endpoints joined by connections of limited capacity (that take any event when they are empty), with different ids: whatever the first endpoint could write on a connection if there were no limit, it can write after nothing but the other endpoint's receive loops having gone on and its replies having been read; nothing has to be written by anybody for that (unless the other side does not receive any more).
- `C97_stuck` (`Props/Bounded.lean:115`): **C97 is violated: two endpoints can wait for each other for ever.** If on both sides of a connection the receive loop waits for the reader of a reply stream with 8 unread replies, and there is no room in either direction, then nothing is written on the connection and nothing received on it is dealt with, on either side, until one of the two readers reads, times out or is dropped, or the connection is stopped - whatever else happens. So if both readers first have something to write on the connection, they wait for ever.
- `C97_violated` (`Props/Bounded.lean:256`): **C97 is violated, for every capacity.** However much the connections hold (as long as they hold something), two endpoints with different ids that ask each other for a stream of replies can get into the state of `C97_stuck`: all that is needed is that their handlers reply faster than the readers of the streams read.
- `C97_await_reply_can_complete` (`Props/BoundedProgress.lean:402`): **C97: `await_reply` can complete, with any capacity.** Whatever two endpoints joined by connections of limited capacity have done so far (whose connections take any event when they are empty), also if both wait for room: a pending `await_reply` made with the connection's context, whose connection is still read on both sides and whose handler has not panicked (and could write its answer), can still return a reply, by nothing but the receive loops, the other requests and the handlers going on. So two endpoints wait for each other only as long as replies that have arrived are not read.
- `C97_stream_can_complete` (`Props/BoundedProgress.lean:427`): **C97: `stream_replies` can get to the answer of the handler, with any capacity.**

## C98 Connections of limited capacity under fair scheduling: as if there were no limit

Let two endpoints be joined by connections that hold only so much, so that writing an event waits for room, and let them be scheduled fairly: receive loops, handlers and whoever waits for a reply keep being polled, and a write is not passed over for ever if there is room for it again and again. Then what has been written on a connection that the other side keeps reading is dealt with there, in its place, whether or not the other side gets to write anything itself; so there is room on it again and again, for any event. On every connection that is kept being read, whatever happens on the others, every handler gets to write its answer; if both sides keep reading it, every pending request on it is written, and its await_reply or stream_replies gets the answer, just as without a limit - unless the request times out, is dropped or cannot be written, or the handler panics or cannot write its answer.

- `C98_room_again_and_again` (`Props/FairBounded.lean:14`): **C98: there is room again and again.** In every fair execution of two endpoints joined by connections of limited capacity, in which the second side keeps reading connection `c`: at any time there is a later time at which the first side can write on `c` whatever it could write if there were no limit.
- `C98_fair` (`Props/FairBounded.lean:31`): **C98: fair executions with limited capacity are fair.** If all connections are read on both sides, then an execution with limited capacity, in which nobody who can write is passed over for ever and all replies are read, is a fair execution of two endpoints whose connections have no limit: what such executions do (C69, C70), it does.
- `C98_emitted_is_dealt_with` (`Props/FairBounded.lean:37`): **C98: what is emitted is dealt with.** For this it is enough that the second side keeps reading the connection: whatever has been written is dealt with by the second side in its place, whether or not anything it writes gets through.
- `C98_await_reply_completes` (`Props/FairBounded.lean:81`): **C98: `await_reply` completes.** In every fair execution over connections of limited capacity, an `await_reply` made with the connection's context returns exactly one event, which refers to the request - unless its own connection is no longer read by one of the sides, it times out, is dropped or cannot be written, or the handler panics or cannot write its answer. Other connections may be stuck for ever.
- `C98_stream_completes` (`Props/FairBounded.lean:89`): **C98: `stream_replies` gets to the answer of the handler.** The same for a stream.
- `C98_every_task_ends` (`Props/FairBounded.lean:98`): **C98: every handler gets to write its answer.** In the same executions, unless the second side stops reading the connection: every handler task of the first side panics, fails to write its answer, or has written exactly one final answer to its event.
