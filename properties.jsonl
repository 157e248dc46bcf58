{"id": "C01", "title": "Event frames round-trip", "statement": "Serialising an event with Event::into_bytes and reading it back with Event::from_async_read yields an event with the same id, type, reference id, namespace, name and payload bytes, and consumes exactly the bytes of that frame, whatever follows in the stream. Holds exactly for events whose header fits in 65535 bytes and whose namespace, if present, is not the empty string.", "quantifier": "every event (all ids, types, ref ids, UTF-8 names/namespaces, payload lengths) and every following byte sequence, both build profiles", "why_tests_cant": "names, namespaces and payloads are unbounded; boundary lengths (65535/65536, empty namespace) and arbitrary trailing bytes cannot be enumerated", "anchors": ["src/events/event.rs: Event::into_bytes, Event::from_async_read, EventHeader::into_bytes, EventHeader::from_read"]}
{"id": "C02", "title": "Back-to-back frames are read in order for every chunking", "statement": "If any finite sequence of (well-formed) events is written to one connection back to back, then the receiving side reads exactly this sequence of events, in this order, no matter how the transport splits the byte stream into reads and how often a read has to wait; when the stream ends cleanly after the last frame the read loop stops without producing another event.", "quantifier": "every list of events, every division of the byte stream into chunks and pending polls", "why_tests_cant": "the number of chunkings is exponential in the stream length, and the length is unbounded", "anchors": ["src/events/event.rs: Event::from_async_read", "src/ipc/mod.rs: handle_connection"]}
{"id": "C03", "title": "A truncated frame never becomes an event", "statement": "If the connection ends anywhere inside a frame (any strict prefix of an encoded event), reading it reports an i/o error; it never yields an event and never panics.", "quantifier": "every well-formed event and every cut position (crash point of the sender)", "why_tests_cant": "every crash point of every message length has to be covered", "anchors": ["src/events/event.rs: Event::from_async_read, EventHeader::from_read"]}
{"id": "C04", "title": "The decoder accepts exactly the documented layout", "statement": "Event::from_async_read returns an event if and only if its input starts with the documented frame layout (total length, header length, version with major 0, id, type byte 0..3, ref marker 0x00/0xFF with optional id, length-prefixed UTF-8 namespace and name, possibly further header bytes that are ignored, then total_length-header_length payload bytes), and the returned event has exactly these field values.", "quantifier": "every byte string a peer can send", "why_tests_cant": "the input space is all byte strings; tests sample it", "anchors": ["src/events/event.rs: Event::from_async_read, EventHeader::from_read, read_version, read_ref_id, read_name, read_namespace, read_string", "SPECIFICATON.md"]}
{"id": "C05", "title": "Appended header fields are ignored (forward compatibility)", "statement": "A frame whose header carries additional trailing bytes after the name decodes to the same event as the frame without them, and the payload and the next frame are not disturbed.", "quantifier": "every event, every byte string appended to the header that still fits a 16 bit header length, every following input", "why_tests_cant": "quantifies over all future header extensions", "anchors": ["src/events/event.rs: Event::from_async_read", "SPECIFICATON.md: Header"]}
{"id": "C06", "title": "Version gate", "statement": "A frame whose first version byte differs from the implementation's major version is always rejected with UnsupportedVersion carrying the dotted version text of the three bytes, which is different for different versions; frames that differ only in the two minor version bytes are decoded as usual.", "quantifier": "every version triple, every header rest and every payload", "why_tests_cant": "2^24 versions times all frames", "anchors": ["src/events/event.rs: EventHeader::read_version", "src/error.rs: Error::unsupported_version_vec"]}
{"id": "C07", "title": "A frame either decodes to the same event or its event is one of a known kind", "statement": "into_bytes never fails; the frame it produces decodes to the same event exactly for the events whose header takes at most 65535 bytes and whose namespace, if there is one, is not empty (for events whose payload can be allocated). For every other event the frame silently decodes to another event or not at all; a user would expect an error instead.", "quantifier": "every event, in particular all with name/namespace of 65536 bytes or more", "why_tests_cant": "needs all lengths beyond a boundary; existing tests only use short names", "anchors": ["src/events/event.rs: Event::into_bytes (as u16 casts), EventHeader::into_bytes"]}
{"id": "C08", "title": "Exactly which malformed input from a peer panics the reader", "statement": "Reading a frame sent by an arbitrary peer returns an event or an error and does not panic, except exactly if the header length is greater than the total length (at once with overflow checks; without them when the header has been read completely and without an error, because the payload length wraps around) or the payload length is over isize::MAX. The events before such an input on a connection are handed on first. A user would expect that no input panics.", "quantifier": "every byte string a peer can send, debug and release arithmetic", "why_tests_cant": "all adversarial inputs", "anchors": ["src/events/event.rs: Event::from_async_read"]}
{"id": "C09", "title": "Error payload round-trip", "statement": "An ErrorEventData (code, message) serialised as a payload is decoded to the same code and message; for messages under 4 GiB, whatever bytes follow.", "quantifier": "every u16 code and every UTF-8 message shorter than 2^32 bytes", "why_tests_cant": "unbounded messages, length boundary at 2^32", "anchors": ["src/events/error_event.rs: IntoPayload/FromPayload for ErrorEventData"]}
{"id": "C10", "title": "Tandem payload round-trip and independence", "statement": "A TandemPayload of any two payloads that round-trip individually round-trips as a pair; each half is decoded from exactly its own bytes, even if a half consumes its reader to the end, and tandems can be nested to any depth.", "quantifier": "every pair of payload types (codecs) and every pair of values, every nesting depth", "why_tests_cant": "quantifies over all payload implementations and nesting depths", "anchors": ["src/events/payload.rs: TandemPayload"]}
{"id": "C11", "title": "Raw byte payload is the identity", "statement": "A BytePayload is put on the wire unchanged and decoding consumes the whole payload and yields the same bytes. Built without serde, () is a payload of no bytes.", "quantifier": "every byte string", "why_tests_cant": "unbounded data", "anchors": ["src/events/payload.rs: BytePayload"]}
{"id": "C12", "title": "Serde payloads are decoded with the format they were encoded with", "statement": "For every build (set of enabled formats), a value serialised with an enabled format decodes to the same value on a peer that has this format enabled, independent of the peer's own default serializer; serialising with a disabled format reports UnavailableFormat and a payload with a format id that is unknown or disabled on the receiver reports UnknownFormat instead of being misdecoded.", "quantifier": "every subset of enabled formats on both sides, every format, every value of every serialisable type, assuming each external format round-trips", "why_tests_cant": "all feature combinations times all values", "anchors": ["src/events/payload.rs: SerdePayload", "src/events/payload_serializer/mod.rs: DynamicSerializer::{first_available, from_primitive, serialize, deserialize}"]}
{"id": "C13", "title": "The default serializer is always usable", "statement": "In every build in which serde support compiles, the serializer chosen by default is one of the enabled formats, and it is the first enabled one in the order messagepack, bincode, postcard, json.", "quantifier": "every non-empty set of enabled formats", "why_tests_cant": "feature combinations are compile-time; one test binary only sees one combination", "anchors": ["src/events/payload_serializer/mod.rs: DynamicSerializer::first_available", "src/lib.rs: compile_error"]}
{"id": "C14", "title": "Event ids are unique within a process for the first 2^32 events", "statement": "Any two of the first 2^32 events created in one process have different ids, whatever the clock does and whichever threads create them; two events with the same id are created at least 2^32 events apart. The upper half of an id is the clock reading of its own creation, and creating an event panics exactly if the clock is before 1970. (After 2^32 events ids can repeat; a user would expect that they never do.)", "quantifier": "every sequence of creations by any number of threads, every clock reading (also jumping backwards)", "why_tests_cant": "needs more than 2^32 creations or adversarial clocks to fail", "anchors": ["src/events/mod.rs: generate_event_id"]}
{"id": "C15", "title": "Event constructors set type and reference", "statement": "Event::initiator creates an Initiator without reference id; response and error create events of type Response and Error with the given reference id; Event::end carries the given reference id but is of type Response. (A user would expect type End of the last one.)", "quantifier": "every namespace, name, payload and reference id", "why_tests_cant": "a per-constructor claim for all arguments", "anchors": ["src/events/event.rs: Event::{initiator,response,error,end,new}"]}
{"id": "C16", "title": "Emit tags events with their context", "statement": "An event emitted on the connection context is an Initiator without reference; an event emitted from inside a handler is a Response that references exactly the event being handled; emit_to sets the namespace and emit leaves it empty; name and payload are the given ones; the returned id is the id in the frame written.", "quantifier": "every context, name, namespace and payload", "why_tests_cant": "all combinations of context and arguments, and for every handled event", "anchors": ["src/ipc/context.rs: Context::{emit,emit_to,emit_raw,set_ref_id}", "src/ipc/stream_emitter/mod.rs: StreamEmitter", "src/ipc/stream_emitter/event_metadata.rs: build_event"]}
{"id": "C17", "title": "A payload that fails to serialise sends nothing", "statement": "If converting the payload fails, emit / await_reply / stream_replies return that error, nothing is written to the connection and no reply listener is registered.", "quantifier": "every payload whose conversion fails, every emit variant, every poll schedule", "why_tests_cant": "must hold for all failing payloads and all polling orders", "anchors": ["src/ipc/stream_emitter/event_metadata.rs", "src/ipc/stream_emitter/emit_metadata.rs", "src/ipc/stream_emitter/emit_metadata_with_response.rs", "src/ipc/stream_emitter/emit_metadata_with_response_stream.rs"]}
{"id": "C18", "title": "Frames of concurrent emitters never interleave", "statement": "With any number of tasks emitting concurrently on one connection, the bytes on the wire are always a concatenation of complete frames in the order in which emitters got the connection, followed by at most a prefix of one frame in progress; hence the peer reads exactly the emitted events. An emit that has returned is entirely on the wire before any emit that starts later.", "quantifier": "every number of emitters, every interleaving, every partial-write size", "why_tests_cant": "schedule space is unbounded", "anchors": ["src/ipc/stream_emitter/emit_metadata.rs: EmitMetadata::poll", "src/ipc/stream_emitter/mod.rs: SendStream"]}
{"id": "C19", "title": "What dropping an emit future does to the connection", "statement": "Dropping an emit future before it holds the connection is harmless. Dropping one that holds it always releases the connection, and what it leaves on the wire is exactly the part of its frame that was written: events written completely before are still read, and later frames follow the torn one; if only data is missing of the torn frame, the peer gets an event nobody has emitted, with the beginning of the next frame in place of the missing data. (A user would expect that a drop never tears a frame.)", "quantifier": "every drop point of every emit in every interleaving", "why_tests_cant": "drop points inside partial writes are not reachable by deterministic tests", "anchors": ["src/ipc/stream_emitter/emit_metadata.rs: EmitMetadata::poll"]}
{"id": "C20", "title": "Replies are correlated", "statement": "await_reply and stream_replies only ever yield events whose reference id is the id of the event that was emitted by that very call.", "quantifier": "every number of concurrent requests, every interleaving, every (also malicious) sequence of events sent by the peer", "why_tests_cant": "interleavings and peer behaviours are unbounded", "anchors": ["src/ipc/mod.rs: handle_connection", "src/ipc/context.rs: register_reply_listener, get_reply_sender", "src/ipc/stream_emitter/emit_metadata_with_response.rs", "src/ipc/stream_emitter/emit_metadata_with_response_stream.rs"]}
{"id": "C21", "title": "No reply is missed", "statement": "As long as no id of the peer collides with an own id: while a request is waiting, every event received with a reference to it is delivered to that request and to nothing else, starting from before the request's frame is written, so a reply can never arrive too early to be seen. (Without the proviso: finishing the handler of a peer event whose id equals the id of an own pending request removes that request's listener.)", "quantifier": "every interleaving of emission, registration, reply arrival, handler completion", "why_tests_cant": "race conditions between reply arrival and registration", "anchors": ["src/ipc/stream_emitter/emit_metadata_with_response.rs: poll", "src/ipc/stream_emitter/emit_metadata_with_response_stream.rs: poll", "src/ipc/mod.rs: handle_event (reply_listeners.remove)"]}
{"id": "C22", "title": "Reply streams are ordered, complete and terminated by the end event", "statement": "A reply stream yields the replies to its request in arrival order without loss or duplication, yields the End event as its last item, and yields nothing after it.", "quantifier": "every number of replies, every interleaving of arrival and consumption, with the bounded channel of 8", "why_tests_cant": "unbounded reply counts and interleavings with a bounded buffer", "anchors": ["src/ipc/stream_emitter/emit_metadata_with_response_stream.rs: ResponseStream::poll_next", "src/ipc/mod.rs: handle_connection"]}
{"id": "C23", "title": "Handler failure is reported to the awaiting caller", "statement": "If a handler fails, exactly one Error event with code 500 and the formatted error as message is sent back referencing the handled event, and an await_reply that receives it first returns Err(ErrorEvent) with this code and message; any other reply is returned as Ok.", "quantifier": "every handler error (messages under 4 GiB), every reply event", "why_tests_cant": "all messages and all reply types", "anchors": ["src/ipc/mod.rs: handle_event", "src/ipc/stream_emitter/emit_metadata_with_response.rs: poll", "src/events/error_event.rs"]}
{"id": "C24", "title": "Exactly which ended requests leave a listener behind", "statement": "As long as ids are not reused, a reply listener is registered exactly for the requests that have been started and have not got their (last) reply: a request that got it leaves nothing behind, and one that ends otherwise (timeout, write error, drop) leaves its listener for ever, and a late reply to it is passed to the global handler of its name even if it is namespaced or an End event. (A user would expect that nothing is left in any case.)", "quantifier": "every history of requests and every time-out/drop point", "why_tests_cant": "accumulates over unbounded histories; depends on schedule", "anchors": ["src/ipc/stream_emitter/emit_metadata_with_response.rs: poll", "src/ipc/stream_emitter/emit_metadata_with_response_stream.rs", "src/ipc/mod.rs: handle_connection"]}
{"id": "C25", "title": "Exactly when a slow reply stream blocks other traffic", "statement": "The receive loop of a connection that has taken a reply for a live request goes on if and only if fewer than 8 replies to that request are unread; up to 8 unread replies never block, the 9th blocks all other traffic of the connection until one is consumed or the request ends. (A user would expect that it never blocks.)", "quantifier": "every history in which a consumer stops reading", "why_tests_cant": "requires exact buffer occupancy and unbounded waiting", "anchors": ["src/ipc/mod.rs: handle_connection (sender.send().await)", "src/ipc/context.rs: register_reply_listener (mpsc::channel(8))"]}
{"id": "C26", "title": "Every handled event is answered exactly once", "statement": "For every received event that is passed to a handler that returns, exactly one final event (End if the handler succeeded, with the handler's response bytes, Error otherwise) referencing that event is emitted when the handler has finished, none before, and everything emitted while the handler ran comes before it on the wire; events without a registered handler are answered by an empty End with no payload. If a handler panics its event is never answered.", "quantifier": "every received event, handler behaviour, interleaving of handlers", "why_tests_cant": "unbounded concurrent handlers", "anchors": ["src/ipc/mod.rs: handle_event", "src/events/event_handler.rs: handle_event, Response"]}
{"id": "C27", "title": "Routing of received events", "statement": "A received event that is no reply to a waiting request is passed to the handler registered for its name in its namespace if the namespace is registered, and otherwise to the global handler of that name. SPECIFICATON.md says events for unregistered namespaces are ignored; the code violates that and passes them to the global handlers.", "quantifier": "every handler/namespace registration and every event", "why_tests_cant": "all registrations times all events", "anchors": ["src/ipc/mod.rs: handle_connection", "src/events/event_handler.rs", "SPECIFICATON.md: Receiving namespaced events"]}
{"id": "C28", "title": "Each received event is dispatched exactly once in arrival order", "statement": "Every event read from a connection is processed exactly once, in arrival order: it is either delivered to the waiting request it references, or handed to exactly one handler, or (an End event nobody waits for) discarded; replies to waiting requests never reach handlers.", "quantifier": "every incoming event sequence and every interleaving", "why_tests_cant": "unbounded histories", "anchors": ["src/ipc/mod.rs: handle_connection"]}
{"id": "C29", "title": "End events are not exchanged endlessly", "statement": "Two peers never exchange End events endlessly. As long as ids are not reused, an End event is dropped without any effect exactly if every own request that it refers to has got its last reply; one that refers to a request that has given up, or that is just returning, is handed to the global handler and answered. (A user would expect that End events are never answered.)", "quantifier": "every event history", "why_tests_cant": "liveness over unbounded exchanges", "anchors": ["src/ipc/mod.rs: handle_connection, handle_event"]}
{"id": "C30", "title": "Handler registration semantics", "statement": "For any sequence of on() calls an event name is served by the callback registered last for it; registering for other names does not affect it; every builder starts with a default callback for \"error\" that can be replaced; adding a namespace with an already registered name replaces all its handlers.", "quantifier": "every sequence of registrations", "why_tests_cant": "unbounded sequences", "anchors": ["src/events/event_handler.rs: EventHandler::on", "src/ipc/builder.rs: IPCBuilder::{new,on,add_namespace}", "src/namespaces/builder.rs", "src/namespaces/provider_trait.rs"]}
{"id": "C31", "title": "Builders validate before connecting", "statement": "build_server, build_client and build_pooled_client fail with a BuildError without touching the network if no address was given; a pool of size 0 is refused; a successful pooled build makes exactly pool_size connections and acquire never panics; if a connection attempt fails the error is returned.", "quantifier": "every builder configuration, pool size and connection outcome sequence", "why_tests_cant": "all sizes and failure points", "anchors": ["src/ipc/builder.rs: validate, build_server, build_client, build_pooled_client", "src/ipc/context.rs: PooledContext"]}
{"id": "C32", "title": "Pool usage counts are exact", "statement": "At every moment, as long as a pool handle is alive, the usage count of each pooled connection equals the number of live guards for it beyond the first, through any sequence of acquire, guard clone, guard drop, pool clone and pool drop by any threads; it never underflows while some pool handle is alive.", "quantifier": "every operation sequence and interleaving", "why_tests_cant": "unbounded histories", "anchors": ["src/ipc/context.rs: PoolGuard::{new,clone,drop,acquire,release,count}, PooledContext"]}
{"id": "C33", "title": "Pool acquires the least used connection and stays balanced", "statement": "acquire returns a connection whose usage count is minimal (the first such one); any number of sequential acquires without releases spreads guards so that usage counts never differ by more than one.", "quantifier": "every pool state, every number of acquires and pool size", "why_tests_cant": "all states", "anchors": ["src/ipc/context.rs: PooledContext::acquire"]}
{"id": "C34", "title": "Stopping a client", "statement": "Context::stop of a client succeeds any number of times on any clones; once the abort that the first call asks for has been carried out no further received event is dispatched, and handlers that are already running are not aborted. (stop only asks: an event can still be dispatched between the return of stop and the abort; and stop on a server's contexts does nothing.)", "quantifier": "every number of clones and calls, every interleaving", "why_tests_cant": "interleavings", "anchors": ["src/ipc/context.rs: Context::stop", "src/ipc/client.rs: IPCClient::connect"]}
{"id": "C35", "title": "Exactly which failures end a server", "statement": "Until the first error every client that connects is served, in order, once. A plain server that has started ends exactly if accepting a connection fails; an encrypted one also if the key exchange of one client fails, and only then; after that nobody is served. (A user would expect that a failed connection does not end the server.)", "quantifier": "every sequence of accept outcomes", "why_tests_cant": "all failure positions", "anchors": ["src/ipc/server.rs: IPCServer::start", "src/protocol/encrypted/protocol_impl.rs: protocol_accept"]}
{"id": "C36", "title": "Server connections are isolated", "statement": "Replies are matched per connection: an event arriving on one connection can never be delivered to a request emitted on another connection of the same server.", "quantifier": "every number of connections and event sequences", "why_tests_cant": "unbounded connections", "anchors": ["src/ipc/server.rs: IPCServer::start"]}
{"id": "C37", "title": "Nonces are never reused in one direction", "statement": "Under one session key, two different packages sent by the same side are never encrypted with the same nonce, for the first 2^64 packages, whatever tasks send them.", "quantifier": "every sequence of encryptions", "why_tests_cant": "2^64 counter space", "anchors": ["src/protocol/encrypted/crypt_handling.rs: CipherBox::{encrypt,en_nonce}, nonce_from_number"]}
{"id": "C38", "title": "Exactly which messages share key and nonce", "statement": "Two messages that the two sides of a session send under the session key are encrypted with the same nonce if and only if they have the same number (modulo 2^64) in their directions; two messages of one direction share it only if their numbers differ by a multiple of 2^64; the first message of every session between two static keys is encrypted under the same key and nonce 0. (A user would expect that no pair is ever used twice.)", "quantifier": "every pair of messages in both directions and all sessions", "why_tests_cant": "not observable by functional tests at all", "anchors": ["src/protocol/encrypted/crypt_handling.rs: CipherBox, from_server_key_exchange", "src/protocol/encrypted/mod.rs: EncryptedStream::new, update_key"]}
{"id": "C39", "title": "Encrypted package framing round-trips", "statement": "An encrypted package written to the transport is read back unchanged with nothing else consumed if and only if its ciphertext is shorter than 2^32 bytes. Plaintexts are cut to 2^32 - 1 bytes, 16 too many: an event of 2^32 - 16 bytes or more on the wire is reported as sent and makes the peer's reader fail.", "quantifier": "every ciphertext and following bytes", "why_tests_cant": "boundary at 4 GiB cannot be tested in practice", "anchors": ["src/protocol/encrypted/mod.rs: EncryptedPackage", "src/protocol/encrypted/io_impl.rs: write_bytes, poll_write, poll_flush"]}
{"id": "C40", "title": "The encrypted layer is transparent", "statement": "Any sequence of events written and flushed through an encrypted connection is read by the peer as the same sequence of events, for every event size below 4 GiB, every partial write, every chunking and every pending pattern of the transport, as long as emits are not dropped midway.", "quantifier": "every event list, transport schedule and buffer state", "why_tests_cant": "unbounded sizes and schedules", "anchors": ["src/protocol/encrypted/io_impl.rs", "src/protocol/encrypted/crypt_handling.rs"]}
{"id": "C41", "title": "Key exchange agreement", "statement": "If server and client complete the key exchange over an undisturbed connection, both use the same session key with all counters zero, for every pair of static secrets; what is then unread on a side is exactly what the other side sent after it had completed the exchange.", "quantifier": "every pair of secrets, every generated session secret", "why_tests_cant": "all keys", "anchors": ["src/protocol/encrypted/crypt_handling.rs: from_server_key_exchange, from_client_key_exchange"]}
{"id": "C42", "title": "Unknown peers are refused", "statement": "Unless allow_unknown is set, a key exchange with a peer whose public key is not listed fails with UnknownPeer, before the server has sent anything and before either side has derived or sent a secret; with a listed key or allow_unknown this check passes; another encoding of a listed point counts as listed. With the default options nobody is trusted.", "quantifier": "every key configuration and every byte string sent by the peer", "why_tests_cant": "all configurations", "anchors": ["src/protocol/encrypted/crypt_handling.rs: from_server_key_exchange, from_client_key_exchange", "src/protocol/encrypted/mod.rs: Keys, EncryptionOptions::default"]}
{"id": "C43", "title": "What tampering, replay and reordering can achieve", "statement": "Whatever an attacker who does not hold the key does to the packages of one direction (drop, duplicate, reorder, modify), the receiver delivers a prefix of what was sent and then an error or waits. If the attacker also uses the packages of the other direction, the receiver still delivers at each place nothing but the event that the peer or the receiver itself has sent at that place. (A user would expect that reflected packages are refused.)", "quantifier": "every attacker transformation of the package sequence", "why_tests_cant": "adversarial input space", "anchors": ["src/protocol/encrypted/crypt_handling.rs: CipherBox::decrypt", "src/protocol/encrypted/io_impl.rs: read_bytes, poll_read"]}
{"id": "C44", "title": "Exactly when a read of an encrypted connection misses its wake-up", "statement": "A poll_read returns Pending without a registered wake-up if and only if it has just emptied a package without filling the caller's buffer; then a read that wants more than the plaintext of one package never returns. The library itself never reads like that on its own traffic: its receive loop is always woken. (A user would expect that every pending read is woken.)", "quantifier": "every buffer size, package division and transport schedule", "why_tests_cant": "lost wake-ups are schedule dependent", "anchors": ["src/protocol/encrypted/io_impl.rs: EncryptedReadStream::poll_read"]}
{"id": "C45", "title": "What dropped writes do to an encrypted connection", "statement": "Whatever emits on an encrypted connection are dropped, at whatever points, the stream of packages is never torn: the peer reads only emitted events, in the order in which the emits got the connection, each at most once and unaltered. Nothing is lost and nothing panics as long as only emits that do not hold the connection are dropped; after one that does, a later emit can return Ok although its event is not sent (or not yet), or panic. (A user would expect that no later emit is affected.)", "quantifier": "every poll sequence", "why_tests_cant": "depends on pending transport at the time of the drop", "anchors": ["src/protocol/encrypted/io_impl.rs: EncryptedWriteStream::{poll_write,poll_flush,poll_shutdown}"]}
{"id": "C46", "title": "End-to-end request/response", "statement": "Between a client and a server connected by a reliable transport, if await_reply returns an event then it is the first event that the server's handler for that request emitted (or its final response if it emitted none), with its payload; and the items of a reply stream are a prefix of the events emitted by that handler followed by its End event - for any number of concurrent requests.", "quantifier": "every number of concurrent requests, every handler program, every interleaving of both processes and the transport", "why_tests_cant": "end-to-end interleavings are unbounded", "anchors": ["src/ipc/mod.rs", "src/ipc/stream_emitter/*", "src/ipc/context.rs"]}
{"id": "C47", "title": "Error events do not loop for ever", "statement": "If one of two peers uses the default error handler, an error event triggers at most one further exchange and no endless error ping-pong can arise.", "quantifier": "every event history", "why_tests_cant": "liveness", "anchors": ["src/ipc/builder.rs: IPCBuilder::new (default error handler)", "src/ipc/mod.rs: handle_event"]}
{"id": "C48", "title": "Futures polled after completion", "statement": "Once a poll of an emit, await_reply or stream_replies future has returned something, further polls have no effect at all: they report InvalidState if the future failed to start, else they panic; an emit that has been polled cannot be turned into a request any more. A reply stream that has ended keeps returning None; a poll of a reply stream panics if and only if an earlier poll has reported a timeout. (A user would expect the stream not to panic.)", "quantifier": "every poll sequence", "why_tests_cant": "all poll orders", "anchors": ["src/ipc/stream_emitter/mod.rs: poll_unwrap", "src/ipc/stream_emitter/emit_metadata_with_response_stream.rs: ResponseStream::poll_next"]}
{"id": "C49", "title": "Exactly which malformed payloads panic the payload decoder", "statement": "Decoding an error payload sent by an arbitrary peer returns a value or an error and never panics. Decoding a tandem payload panics exactly if one of the two lengths is above isize::MAX or the decoder of a half panics on its bytes. (A user would expect that no payload panics.)", "quantifier": "every byte string as a payload", "why_tests_cant": "all byte strings", "anchors": ["src/events/error_event.rs: FromPayload for ErrorEventData", "src/events/payload.rs: FromPayload for TandemPayload"]}
{"id": "C50", "title": "A timeout is reported only when the timer of that request fired", "statement": "await_reply returns Timeout, and a reply stream yields Timeout, only if the timeout that was configured (with_timeout or the context's default) has elapsed since waiting began; a stream's items do not make the timeout of a later item due earlier.", "quantifier": "every poll sequence, every set of answers of the connection, timer and reply channel", "why_tests_cant": "all poll orders", "anchors": ["src/ipc/stream_emitter/emit_metadata_with_response.rs: poll", "src/ipc/stream_emitter/emit_metadata_with_response_stream.rs: poll_next"]}
{"id": "C51", "title": "A request ends by a reply, its timeout, or being dropped", "statement": "As long as ids do not repeat, the reply channel of a waiting request is never closed from the library's side before the end of its replies, so a request never ends with a receive error; after the connection is lost, waiting requests end only by their timeout or by being dropped.", "quantifier": "every history of an endpoint with pairwise different request ids", "why_tests_cant": "all interleavings", "anchors": ["src/ipc/context.rs: register_reply_listener, get_reply_sender", "src/ipc/mod.rs: handle_connection"]}
{"id": "C52", "title": "When a client that does not complete its connection set-up blocks other clients", "statement": "On a plain server, however a client behaves after it has connected, all other clients that connect can be accepted and served. On an encrypted server nobody else is accepted while the key exchange of one client is going on, for as long as that client stays silent. (A user would expect that one silent client does not block the others.)", "quantifier": "every behaviour of a client, every number of other clients", "why_tests_cant": "the blocking client never does anything; absence of progress over unbounded time", "anchors": ["src/ipc/server.rs: IPCServer::start", "src/protocol/encrypted/protocol_impl.rs: protocol_accept"]}
{"id": "C53", "title": "What an encrypted connection does after an error and at shutdown", "statement": "Once a read of an encrypted connection has failed, every further read (poll_read, read_exact, read_u32 etc.) panics. A shutdown does not complete by itself: the poll that finishes its flush returns Pending without a wake-up, and every later flush panics. Polled again nevertheless, it does what the transport's shutdown does, and after its end a further poll panics. Writes after the flush of a shutdown are still accepted while less than 1024 bytes are buffered, and are never sent. (A user would expect errors, and a shutdown that completes.)", "quantifier": "every poll sequence", "why_tests_cant": "all poll orders", "anchors": ["src/protocol/encrypted/io_impl.rs: poll_read, poll_shutdown"]}
{"id": "C54", "title": "What a completed key exchange proves", "statement": "A client that completes the key exchange has received, after a trusted public key, a package that somebody encrypted under the secret shared with that key. A server that completes it has received 32 bytes that are a trusted public key, and nothing more is needed: it completes with everyone who sends them. (A user would expect both sides to prove possession of their secret.)", "quantifier": "every peer behaviour", "why_tests_cant": "all byte strings a peer can send", "anchors": ["src/protocol/encrypted/crypt_handling.rs: from_server_key_exchange, from_client_key_exchange"]}
{"id": "C55", "title": "How far a recorded session can be replayed", "statement": "An attacker who replays the recorded bytes of the server of an old session makes the client complete the exchange with the old session key and accept the recorded events again; without forging packages he can make it deliver nothing but what was sent under that key, each at its place. (A user would expect that a replay is refused.)", "quantifier": "every recorded session", "why_tests_cant": "all sessions and keys", "anchors": ["src/protocol/encrypted/crypt_handling.rs: from_client_key_exchange"]}
{"id": "C56", "title": "The result of starting a server", "statement": "build_server returns an error exactly if the address was missing or binding the listener failed, and then that error; every other end is Ok. Nobody is served before the listener is bound or after build_server has returned.", "quantifier": "every history of a server", "why_tests_cant": "all histories", "anchors": ["src/ipc/server.rs: IPCServer::start", "src/ipc/builder.rs: build_server"]}
{"id": "C57", "title": "End to end over the bytes", "statement": "Two endpoints joined by any number of plain and encrypted connections see exactly what they would see if events arrived as a whole and in order: however the bytes are written, cut, delayed and delivered and however emits, requests and handlers interleave, the events read on a connection are a prefix of those emitted on it, every reply a request receives was emitted by the one handler task of the other side that handled this request, in order, and an End or Error reply carries the result of that handler.", "quantifier": "every number of endpoints' connections of either kind, every interleaving, every partial write and read, every key and history", "why_tests_cant": "fragmentations times interleavings of both layers are unbounded", "anchors": ["src/events/event.rs: into_bytes, from_async_read", "src/ipc/context.rs: await_reply, emit", "src/ipc/stream_emitter/emit_metadata.rs", "src/protocol/encrypted/io_impl.rs", "src/ipc/mod.rs: handle_connection"]}
{"id": "C58", "title": "A connection is never stuck by itself", "statement": "From every state that a connection can reach, plain or encrypted, without a failed or dropped emit and without a transport error, it is possible that every event emitted so far is completely written, transported and read, without any further emit.", "quantifier": "every reachable state of a connection", "why_tests_cant": "all reachable states and fragmentations", "anchors": ["src/protocol/encrypted/io_impl.rs: poll_write, poll_flush, poll_read", "src/events/event.rs: from_async_read", "src/ipc/stream_emitter/emit_metadata.rs"]}
{"id": "C59", "title": "An encrypted connection is a faithful byte stream", "statement": "Whoever writes to an encrypted connection in buffers of any size below 4 GiB, with flushes anywhere, and polls each call until it is ready: no call fails while the transport works, every call returns if the transport takes at least one byte in each poll, a flush that has returned has put everything written so far on the wire, between calls fewer than 1024 bytes of what was written are held back (each package adds 20 bytes), and what the peer reads, with poll_read or read_exact and buffers of any sizes, is in a row the beginning of what was written, and all of it after a flush, once everything has arrived and the reader has polled often enough. (tokio's read_u16, read_u32 and read_u64 forget what a pending poll has put into their buffer, so with them bytes are lost if an integer is cut by the end of a package; the library never does that because each event is one package.)", "quantifier": "every sequence of writes, flushes and reads, every buffer size, every fragmentation by the transport, every key", "why_tests_cant": "unbounded sequences of polls and divisions into packages", "anchors": ["src/protocol/encrypted/io_impl.rs: poll_write, poll_flush, poll_read"]}
{"id": "C60", "title": "From key exchange to events", "statement": "However a key exchange went that both sides completed, the connection the two sides then hold is a faithful encrypted connection in both directions: what one side emits is what the other reads, events sent by the server before the client has completed are not swallowed, and no byte of the exchange is taken for an event.", "quantifier": "every pair of keys, every schedule and fragmentation of the exchange, every later use of the connection", "why_tests_cant": "all schedules of the exchange followed by all schedules of the session", "anchors": ["src/protocol/encrypted/crypt_handling.rs: from_server_key_exchange, from_client_key_exchange, update_key", "src/protocol/encrypted/io_impl.rs", "src/protocol/encrypted/protocol_impl.rs"]}
{"id": "C61", "title": "A pending request can always complete", "statement": "Two endpoints joined by working connections never get into a state from which a pending request made with a connection's context can no longer complete: as long as its connection is still read on both sides and its handler has not panicked, await_reply can still return a reply, and a stream can still get to its End event or to the Error event of its handler, merely by receive loops, waiting requests and handlers going on; even if a receive loop is blocked by the full channel of another request.", "quantifier": "every reachable state of two endpoints with any number of connections, requests and handlers", "why_tests_cant": "absence of deadlock in all reachable states", "anchors": ["src/ipc/mod.rs: handle_connection, handle_event", "src/ipc/stream_emitter/emit_metadata_with_response.rs", "src/ipc/stream_emitter/emit_metadata_with_response_stream.rs", "src/ipc/context.rs: register_reply_listener"]}
{"id": "C62", "title": "Requests made by a handler", "statement": "A request that a handler makes with its own context refers to the event it handles. If the peer has a pending request for that event, the peer takes the handler's request for a reply: it is never passed to an event handler and never answered, in every continuation; the handler's request can only time out, fail or be dropped.", "quantifier": "every reachable state and continuation of two joined endpoints", "why_tests_cant": "all continuations", "anchors": ["src/ipc/mod.rs: handle_connection, handle_event", "src/ipc/context.rs: emit, set_ref_id"]}
{"id": "C63", "title": "A stream whose handler has failed", "statement": "If the handler of the event of a stream_replies has returned an error or panicked, the stream never ends by itself: in every continuation it yields no End event, and after the Error event it stays pending until it times out or is dropped.", "quantifier": "every reachable state and continuation of two joined endpoints", "why_tests_cant": "all continuations", "anchors": ["src/ipc/stream_emitter/emit_metadata_with_response_stream.rs: poll_next", "src/ipc/mod.rs: handle_event"]}
{"id": "C64", "title": "Who keeps a connection open", "statement": "The sending side of a connection stays open exactly as long as its receive loop runs or some context, emit, request or handler of that connection is left; the socket is closed exactly when neither is the case. The receive loop of a client ends only because reading ended or because somebody called stop; dropping all contexts of a client does not end it. stop can be called from any context of the connection, also inside a handler, always succeeds, and ends the receive loop, but the peer does not see the end of the stream while another clone is left. On a connection of a server stop has no effect.", "quantifier": "every sequence of clones, emits, requests, handler starts, stops, drops, aborts and end of input", "why_tests_cant": "all interleavings of shared ownership", "anchors": ["src/ipc/context.rs: Context, stop", "src/ipc/client.rs: connect", "src/ipc/server.rs: start", "src/ipc/mod.rs: handle_connection", "src/ipc/stream_emitter/mod.rs: SendStream", "src/ipc/stream_emitter/emit_metadata_with_response.rs"]}
{"id": "C65", "title": "A pool whose build fails", "statement": "build_pooled_client makes connections one after the other until one attempt fails, whose error it returns. The connections made before are not closed: nobody has a context of them, but they stay open in both directions and their receive loops run.", "quantifier": "every pool size and every sequence of results of connecting", "why_tests_cant": "every size and failure position", "anchors": ["src/ipc/builder.rs: build_pooled_client", "src/ipc/client.rs: connect"]}
{"id": "C66", "title": "What contexts share, and their settings", "statement": "build_client makes one connection and gives its context, build_pooled_client(n) gives one context for each of n connections. Every context of the user or of a handler has the reply timeout and default serializer given last to the builder (60 s and the first available format if none was given) unless a field of that context or of the one it was cloned from was assigned; an assignment affects no other existing context, and never the contexts of handlers of later events. A handler's context emits on the connection its event came from, as answer to it. All contexts of a build share the same data; contexts of the same connection, and only those, share a stop sender, which exists exactly until stop is called on that connection, and never on a server; reply listeners are shared by all connections of a client or pool, and by nothing but the same connection on a server.", "quantifier": "every sequence of builder calls, every result of connecting, every sequence of accepts, events, clones, assignments, writes, stops and drops", "why_tests_cant": "all call sequences and histories", "anchors": ["src/ipc/builder.rs: build_client, build_pooled_client, build_server, timeout, default_serializer", "src/ipc/client.rs: connect", "src/ipc/server.rs: start", "src/ipc/context.rs: Context::new, default_reply_timeout, default_serializer", "src/ipc/mod.rs: handle_event"]}
{"id": "C67", "title": "Shared data", "statement": "What is read from the data of a context under a key is what was written last under that key: by insert or insert_all on the builder, or through any context made by that build, also one of another connection; nothing if it was removed or never written.", "quantifier": "every sequence of builder calls and of writes through any contexts", "why_tests_cant": "all histories", "anchors": ["src/ipc/builder.rs: insert, insert_all", "src/ipc/context.rs: data", "src/ipc/server.rs: start"]}
{"id": "C68", "title": "The request futures behave like the requests of the model", "statement": "However the future of await_reply or the future and stream of stream_replies are polled, with anything going on in the process between the effects of one poll: what they do next (register the listener, write, take a reply, find the channel closed, time out, remove the listener) is always a possible step of the request with exactly that effect on listeners, wire and channel; nothing else happens; what is returned fits what was done (Pending only if nothing was taken, a reply or item only if it came from the channel of this request and refers to its event); a reply that waits in the channel is returned by a poll in which the timer has not fired; and dropping the future between polls ends the request without touching listeners or the wire.", "quantifier": "every request kind, context, payload encoding, poll schedule, interleaving with the rest of the process, and drop point", "why_tests_cant": "all poll schedules and interleavings", "anchors": ["src/ipc/stream_emitter/emit_metadata.rs: EmitMetadata::poll", "src/ipc/stream_emitter/emit_metadata_with_response.rs: EmitMetadataWithResponse::poll", "src/ipc/stream_emitter/emit_metadata_with_response_stream.rs: poll, poll_next", "src/ipc/context.rs: register_reply_listener, get_reply_sender", "src/ipc/mod.rs: handle_connection"]}
{"id": "C69", "title": "Every received event is served (under fair scheduling)", "statement": "If receive loops, channel senders, requests, handlers and writers are scheduled fairly and streams are read, then with any peer: every event that arrives on a connection is at some time dealt with, in its place; it is delivered to the request it refers to, or ignored because it is an End event, or a handler task writes exactly one final answer to it - unless the receive loop ends, the callback panics or the answer cannot be written. (If one stream is never read, dropped or timed out, an event behind it can wait for ever.)", "quantifier": "every infinite fair execution of an endpoint, with an arbitrary peer, and every event arriving in it", "why_tests_cant": "all infinite schedules", "anchors": ["src/ipc/mod.rs: handle_connection, handle_event", "src/ipc/context.rs: get_reply_sender"]}
{"id": "C70", "title": "Requests complete (under fair scheduling)", "statement": "If two processes joined by connections that carry what is written are scheduled fairly, then every await_reply made with the connection's context returns exactly one event, which refers to the request, and every such stream_replies gets to its End event or yields the Error event of its handler - unless it times out, cannot be written or is dropped, the connection is no longer read on one side, the callback panics or its answer cannot be written. Every event emitted and written is served by the peer while the peer keeps reading.", "quantifier": "every infinite fair execution of two joined endpoints with distinct event ids, and every request in it", "why_tests_cant": "all infinite schedules", "anchors": ["src/ipc/mod.rs: handle_connection, handle_event", "src/ipc/stream_emitter/emit_metadata_with_response.rs", "src/ipc/stream_emitter/emit_metadata_with_response_stream.rs"]}
{"id": "C71", "title": "Requests complete over bytes (under fair scheduling)", "statement": "Two processes joined by any number of plain and encrypted connections, down to the bytes, the locks of the connections and partial writes: if endpoints, writers, transport and receive loops are scheduled fairly, then a connection that is held for writing gets free again; every event written on a connection is dealt with by the peer in its place while the peer keeps reading; every await_reply made with the connection's context returns exactly one event, which refers to the request; and every such stream_replies gets to its End event or yields the Error event of its handler - unless it times out, fails or is dropped, the connection is no longer read, the callback panics or its answer cannot be written.", "quantifier": "every infinite fair execution, every number and kind of connections, every fragmentation of the bytes, every request in it", "why_tests_cant": "all infinite schedules and fragmentations", "anchors": ["src/ipc/mod.rs: handle_connection, handle_event", "src/ipc/stream_emitter/emit_metadata.rs: EmitMetadata::poll", "src/ipc/stream_emitter/emit_metadata_with_response.rs", "src/ipc/stream_emitter/emit_metadata_with_response_stream.rs", "src/protocol/encrypted/io_impl.rs: EncryptedReadStream, EncryptedWriteStream", "src/events/event.rs: Event::from_async_read"]}
{"id": "C72", "title": "Which calls the protocols make, and with which options", "statement": "Binding a TCP, unix or (possibly nested) encrypted listener makes one bind call with the address given and then, for TCP with a TTL, one set_ttl call with that TTL; accepting makes one accept call and then one key exchange per encrypted layer, innermost first, each with the keys given for that layer at bind time; connecting makes one connect call, then set_ttl or ready, then one key exchange per layer, innermost first. The first call that fails ends the operation with its error and no further call is made; the operation succeeds iff all calls succeed. None of them panics; errors are IO errors or UnknownPeer with a key that is not trusted by a layer. A builder uses the address, server_options and client_options given last; a pool of n makes n complete connections. Default options have no TTL, and for each encrypted layer no trusted peers and a secret from its own draw of the random generator. An encrypted protocol used with its default options can neither accept nor connect to anybody.", "quantifier": "all nestings of protocols, options, keys, addresses, sequences of builder calls, and all outcomes of the calls (which may depend on the history)", "why_tests_cant": "all nestings of options and all failure points", "anchors": ["src/protocol/tcp.rs: protocol_bind, protocol_accept, protocol_connect", "src/protocol/unix_socket.rs: protocol_bind, protocol_accept, protocol_connect", "src/protocol/encrypted/protocol_impl.rs", "src/protocol/encrypted/mod.rs: EncryptionOptions::default", "src/ipc/builder.rs: build_server, build_client, build_pooled_client"]}
{"id": "C73", "title": "When event ids of two processes collide, and what comes of it", "statement": "Among the first 2^32 events of each of two processes, two events have the same id iff they have the same number within their process and were created in the same millisecond, up to multiples of 65535 seconds; so all ids on a connection are different (what end-to-end correlation relies on) iff no such pair exists, and always if both sides live in one process that creates at most 2^32 events. If it happens, a request can end with an error although its answer has arrived: handling the peer's event with the same id removes the request's reply listener.", "quantifier": "all executions of two processes with any clocks and threads, at most 2^32 events each", "why_tests_cant": "all clock histories and schedules of two processes", "anchors": ["src/events/mod.rs: generate_event_id", "src/ipc/mod.rs: handle_event (reply_listeners.remove)"]}
{"id": "C74", "title": "Under fair scheduling, servers serve everybody and key exchanges complete", "statement": "If a server is scheduled fairly (start binds or fails, accept returns when somebody waits, a key exchange that goes on is polled again and again), everyone who connects is served, in the order of connecting, unless the server ends or stays for ever in the key exchange with one client. A plain server never gets stuck. An encrypted server is stuck only if the client it exchanges keys with never sends the 32 bytes of its key and never closes the connection, or stops taking what the server writes (a user would expect that such a client does not keep others waiting, but it does). Two sides that trust each other, over an undisturbed connection, scheduled fairly, both complete the key exchange with the same secret, however reads and writes are divided.", "quantifier": "all infinite executions with the stated fairness, all clients, keys, divisions of reads and writes", "why_tests_cant": "liveness over all infinite schedules", "anchors": ["src/ipc/server.rs: start", "src/protocol/encrypted/protocol_impl.rs: protocol_accept", "src/protocol/encrypted/crypt_handling.rs", "src/protocol/encrypted/mod.rs"]}
{"id": "C75", "title": "What an encrypted connection does after write errors", "statement": "If calls on the write half of an encrypted connection are awaited (not dropped), none of them panics, whatever errors the transport has reported before. Every byte of every write begun is in exactly one package or still in the buffer; packages are numbered without gaps; of each a beginning is on the wire, and the packages of which something is missing are at most as many as the calls that returned an error. What a failed call has not written is lost, and later writes and flushes return Ok again; but (if nothing deciphers as a package that was not written completely) the peer never reads anything beyond the first torn package. Every write or flush, new or under way, after any errors, returns if it is polled while the transport takes at least one byte per poll, and returns Ok if the transport reports no error in these polls. (A user would expect that data whose writing and flushing was reported Ok can be read, or that the connection stays failed.)", "quantifier": "all sequences of write and flush calls, buffers, all answers and errors of the transport, all divisions of reads", "why_tests_cant": "all failure points in all packages", "anchors": ["src/protocol/encrypted/io_impl.rs: poll_write, poll_flush, write_bytes, poll_read"]}
{"id": "C76", "title": "How a key exchange with an arbitrary peer ends, and what it waits for", "statement": "Whatever the peer sends, when it closes, however reads and writes are divided and whatever errors the transport reports: neither side of a key exchange panics. The server's side fails only with UnknownPeer (and the peer has sent the key of a stranger), with UnexpectedEof (the peer has closed before its 32-byte key was complete) or with an error of the transport; the client's side also with UnexpectedEof if the session key was cut off, and with InvalidData if a package does not decipher as the next one. If the client's side completes, the session key is the first 32 bytes deciphered and the rest of the last package is what is read first from the connection. If everything that has arrived is handed out and the transport takes what is written, a poll ends the exchange, unless the peer's key (or, for the client, the package with the session key) has not arrived completely and the peer has not closed; or the server has sent a session key that is too short: then the client waits for ever, even if the server has closed (a user would expect an error).", "quantifier": "all peers, byte strings, divisions of reads and writes, close points, transport errors, keys", "why_tests_cant": "all byte streams of an adversarial peer in all divisions", "anchors": ["src/protocol/encrypted/crypt_handling.rs: from_server_key_exchange, from_client_key_exchange, receive_public_key, send_public_key", "src/protocol/encrypted/io_impl.rs: poll_read"]}
{"id": "C77", "title": "Encryption inside encryption, to any depth", "statement": "Over an encrypted connection whose transport is itself an encrypted connection (and so on, any number of layers): whatever the socket answers, each event emitted goes to the wire in exactly one package of the outermost layer, which is in exactly one package of the next layer, down to the socket; every layer numbers its packages without gaps and repeats no nonce; when no emit is under way nothing is left in any buffer. A peer with the same layers reads exactly the events whose packages are complete, in order, then waits or sees the end of the stream. Emits do not panic, fail only if the socket fails, are woken by the socket when pending, and get on whenever the socket takes bytes. One layer behaves as the plain encrypted connection; with several layers all end-to-end guarantees (C57, C58, C61, C71) hold as well.", "quantifier": "all numbers of layers, keys and ciphers, all sequences of events whose frames fit, all answers of the socket (partial writes and reads, pending polls), all ways of cutting the bytes for the reader", "why_tests_cant": "depth of nesting, event sequences and socket behaviours are unbounded, and a byte left in the buffer of one layer shows only for particular sizes and schedules", "anchors": ["src/protocol/encrypted/io_impl.rs: poll_read, poll_write, poll_flush", "src/protocol/encrypted/protocol_impl.rs: AsyncProtocolStream for EncryptedStream<T>", "src/protocol/encrypted/mod.rs: EncryptedPackage", "src/ipc/stream_emitter/emit_metadata.rs: poll"]}
{"id": "C78", "title": "End to end over connections that lose events", "statement": "If of the events emitted on a connection only a subsequence arrives (as, shown down to the bytes, on encrypted connections, also with encrypted layers in each other to any depth, whose emits are dropped at any point), then still everything a request receives was emitted by the one handler that handled the event of this very request, in the order it was emitted, unaltered and nothing twice; the End or Error event it receives is the answer made from the result of that handler; nothing that arrived for it is skipped; End events are not exchanged endlessly and an error event handled by the default handler ends the exchange. What loss can change: `await_reply` may return a later event of the handler than the first. An event that has not arrived while one emitted after it on the same connection has, never arrives: a request whose event is lost in this way never gets a reply and waits until its timeout fires or it is dropped; a stream whose handler's answer is lost never ends by itself, and no event that is lost is ever given to a request.", "quantifier": "all interleavings of two endpoints with any number of connections, requests and handlers, all choices of which events are lost, all contents, with different event ids", "why_tests_cant": "which events are lost and how the two sides interleave are unbounded choices; a reply attributed to the wrong request shows only for particular combinations", "anchors": ["src/ipc/context.rs: emit, EmitMetadata, reply listeners", "src/ipc/mod.rs: handle_connection, handle_event", "src/ipc/stream_emitter/emit_metadata_with_response.rs, emit_metadata_with_response_stream.rs", "src/protocol/encrypted/io_impl.rs: poll_write (dropped writes, C45, C86)"]}
{"id": "C79", "title": "How timeouts are measured", "statement": "An await_reply reports Timeout only in a poll that happens at least its timeout (that of with_timeout, else the context's default) after the poll in which its event was completely written; time spent writing does not count, and there is no timeout meanwhile. Conversely, once that time has passed and the timer is noticed, it is not pending any more, and reports Timeout if there is no reply. A reply stream reports Timeout only at least the timeout after the first poll for the item in question, that is the first poll after the stream was opened or gave its previous item: every item has the whole timeout, and time in which nobody polls the stream does not count; and once the timeout has passed since that first poll and the timer is noticed, the stream reports Timeout if there is no item.", "quantifier": "every sequence of polls at any times, every behaviour of connection, channel and timer driver, every timeout", "why_tests_cant": "all times and all poll sequences", "anchors": ["src/ipc/stream_emitter/emit_metadata_with_response.rs: poll", "src/ipc/stream_emitter/emit_metadata_with_response_stream.rs: poll_next", "src/ipc/context.rs: default_reply_timeout"]}
{"id": "C80", "title": "Setting up encrypted layers in each other", "statement": "protocol_connect and protocol_accept of EncryptedStream over EncryptedStream (to any depth) connect the inner stream, with its own key exchange, and then do a key exchange through it. Whatever the sockets answer and however the two sides are polled, what the client sends is a prefix of its public keys, from the innermost layer, each through all layers inside; what the server sends is a prefix of, for each layer, its public key and the session key in a package with the shared secret. A side that is done has sent all of it, trusts the peer in every layer, and has in every layer the session that the other side has: key, package numbers, nothing buffered; what came after the set-up is not lost. Neither side panics, loses its wake-up, or fails for another reason than a failed write, an early close or a stranger, and the error says which; a side that meets a stranger never has a connection and sends nothing for the layers around. If the sockets do not fail and all bytes arrive, a side is done, or reports the stranger, after a known number of polls in which its socket takes something; if the connection is closed before, it does not wait but reports that, after as many polls. Each side uses a nonce at most once with a key of the set-up (provided the random session key differs from the shared secret; that the two directions share keys and nonces is C38).", "quantifier": "any number of layers, any keys and cryptographic functions, every sequence of polls and answers of both sockets, every way the bytes arrive in pieces, every stopping point", "why_tests_cant": "depth, schedules and fragmentation are unbounded; a byte read too far by an inner layer, or a counter that is not carried over, shows only for certain fragmentations and depths", "anchors": ["src/protocol/encrypted/protocol_impl.rs: protocol_connect, protocol_accept", "src/protocol/encrypted/crypt_handling.rs: from_client_key_exchange, from_server_key_exchange, CipherBox::update_key", "src/protocol/encrypted/mod.rs: EncryptedStream::new, update_key"]}
{"id": "C81", "title": "Encrypted layers with an arbitrary peer", "statement": "Whatever bytes arrive, whatever the socket answers and however it is polled, setting up EncryptedStream over EncryptedStream (to any depth) does not panic. It fails only with a failed write, with UnexpectedEof if the connection is closed, with InvalidData if in some layer a package arrived that does not decipher, or with UnknownPeer and a key that arrived in some layer and is not trusted there. At any time, what a client has sent is its public keys up to some layer, and all layers inside that one are set up with peers it trusts; what a server has sent is its answers up to some layer, and in all these layers it has heard a key that it trusts. A side that completes has in every layer heard a trusted key; the client's session key is the first 32 bytes deciphered with the secret agreed with that key, and what the peer has put behind it is what the client reads first; both halves use these sessions.", "quantifier": "any number of layers, any keys and cryptographic functions, all bytes a peer can send in all fragmentations, every sequence of polls and answers of the socket, every stopping point", "why_tests_cant": "the peer's bytes are arbitrary and nested ciphertexts multiply the states in which a forged, cut or surplus message can arrive", "anchors": ["src/protocol/encrypted/protocol_impl.rs: protocol_connect, protocol_accept", "src/protocol/encrypted/crypt_handling.rs: from_client_key_exchange, from_server_key_exchange, receive_public_key", "src/protocol/encrypted/io_impl.rs: poll_read"]}
{"id": "C82", "title": "A layered connection from the first byte to the last event", "statement": "Client and server connect through EncryptedStream over EncryptedStream (to any depth) over one connection, and then emit events in both directions, each as soon as its own protocol_connect or protocol_accept has returned (the other side may still be setting up). Whatever the sockets answer, what a side has put on the wire is its part of the set-up followed by a prefix of the packages of its events, in the order in which the emits got the connection, and all of them when no emit is under way or has failed. Each side reads exactly the events of the other whose packages have arrived completely, in order, and then waits, or sees UnexpectedEof if the connection is closed: nothing of the set-up is taken for an event or the other way round, also if both arrive in the same piece. Emits do not panic and fail only with an error of the socket, or WriteZero if it takes nothing; if the socket takes something in each poll, each emit ends.", "quantifier": "any number of layers, any keys and cryptographic functions, all sequences of events that fit, every sequence of polls and answers of both sockets, every way the bytes arrive in pieces, every stopping point", "why_tests_cant": "the border between set-up and events can fall anywhere in what a read of the socket returns, at any depth; package numbers that are off by one after the set-up show only with layers around", "anchors": ["src/protocol/encrypted/protocol_impl.rs: protocol_connect, protocol_accept", "src/protocol/encrypted/crypt_handling.rs: CipherBox::update_key", "src/protocol/encrypted/io_impl.rs: poll_read, poll_write, poll_flush", "src/ipc/context.rs: emit", "src/ipc/mod.rs: handle_connection"]}
{"id": "C83", "title": "A server with encrypted layers", "statement": "A server whose listener is an EncryptedListener over an EncryptedListener (to any depth) serves its clients in the order in which they connect. It serves only clients with whom the key exchanges of all layers have completed, that is, that have presented a trusted key in every layer, and talks to each with the session keys made for that client. start returns an error only if binding fails. It returns Ok, and then nobody is served any more, only after an error of the socket's accept or a failed set-up: a failed write, a connection closed early, a package that does not decipher in some layer, or an untrusted key in some layer; and a client that is unknown in some layer does end it. A client that is trusted and sends its part is served, in whatever pieces it sends, and all clients that wait can be served if they all do so; under fair scheduling all of them are served in the end. The server stays for ever in the set-up with a client that sends its part only if the socket of this client takes nothing any more. A client that is trusted but falls silent at any point of the set-up blocks all others for as long as its connection stays open.", "quantifier": "any number of layers and clients, any keys, any bytes from any client in any fragmentation, all sequences of connects, accepts, polls and socket answers", "why_tests_cant": "the number of layers, clients and schedules is unbounded, and so are the ways in which a client can deviate from the protocol in some layer", "anchors": ["src/ipc/server.rs: IPCServer::start", "src/protocol/encrypted/protocol_impl.rs: protocol_bind, protocol_accept", "src/protocol/encrypted/crypt_handling.rs: from_server_key_exchange"]}
{"id": "C84", "title": "What an attacker can achieve against encrypted layers", "statement": "A client or server has connected through EncryptedStream over EncryptedStream (to any depth), and all bytes that reach it are chosen by an attacker, from the first byte of the set-up on; the attacker may hold the keys of all layers but the outermost. If the attacker cannot make packages of the outermost layer (of what that layer reads, only the packages of the sender decipher, each with its own number; for a client also: under the secret agreed with the trusted key, only the server's package with the session key), then the events that are delivered are a prefix of those the sender has sent: none is altered, dropped from the middle, repeated or moved, and nothing of the set-up or of inner layers is taken for an event. Then there is an error or waiting. If the attacker also uses the packages of the other direction, each event delivered is one that the sender or the receiver itself has sent at that place.", "quantifier": "any number of layers, any keys, any cipher and key agreement with the stated restriction, all bytes and fragmentations and closings of the connection, all answers of the socket during the set-up, all sequences of events that fit", "why_tests_cant": "attackers choose any bytes at any layer, including bytes that make inner layers lose parts of the stream", "anchors": ["src/protocol/encrypted/io_impl.rs: poll_read", "src/protocol/encrypted/crypt_handling.rs: CipherBox::decrypt", "src/protocol/encrypted/protocol_impl.rs: protocol_connect, protocol_accept", "src/events/event.rs: from_async_read", "src/ipc/mod.rs: handle_connection"]}
{"id": "C85", "title": "Guards of the shared data", "statement": "Handlers and other tasks read and write the data of the process through guards of ctx.data (read().await, write().await) and may keep a guard over awaits. Data is read only through a guard and written only through one for writing. While a guard for writing exists there is no other guard; as long as a guard exists nobody else writes, so that two reads through one guard agree; a read returns what was written last. Requests are served in the order in which they are made: exactly those have a guard that are first, or that read with nobody before them that writes. If every guard gets dropped some time then every request is served some time, also of writers when readers keep coming. A task that asks for a second guard while it has one gets it at once exactly if both are for reading and nobody waits to write; otherwise it waits for itself and never gets it.", "quantifier": "every number of tasks and guards, every interleaving of requests, drops, reads and writes, every infinite schedule", "why_tests_cant": "the deadlock and the order depend on interleavings; fairness is about infinite schedules", "anchors": ["src/ipc/context.rs: Context::data", "src/ipc/builder.rs: build_client, build_pooled_client", "src/ipc/server.rs: start"]}
{"id": "C86", "title": "Dropped emits on connections with encrypted layers", "statement": "On a connection through EncryptedStream over EncryptedStream (to any depth) callers drop futures of `emit` at any point while they hold the connection, or poll emits that panic because of an earlier drop. The wire is never torn: the bytes on it are a prefix of packages in packages of which each carries the whole frames of one or more of the emitted events, in the order in which their emits got the connection, none twice; frames that wait in the buffer of the outermost layer are whole, too, and less than 1024 bytes. A peer with the same layers reads exactly the events of the packages that have arrived completely, however the socket cuts the bytes, and then waits or sees the end of the stream; it never sees a broken frame or a package that does not decipher. So events can be missing but are never altered, doubled or reordered. While the socket does not fail, a poll of an emit gives no error; it panics only if the flush of a dropped emit is unfinished and 1024 bytes come together in the buffer. A dropped emit releases the connection at once, and an emit that is not dropped comes to its end within as many polls as bytes are still to go, if the socket is ready at each. All in all there are at most 20 bytes for each emit and layer on the wire beside the frames. Each layer encrypts at most one package for each emit, under its own key, with consecutive nonces.", "quantifier": "any number of layers, keys and ciphers, any sequence of events that fit, all points at which emits are dropped, all answers of a socket that does not fail, all fragmentations on the way to the peer", "why_tests_cant": "the points at which a future is dropped, the nesting depth and the partial writes of the socket are unbounded", "anchors": ["src/protocol/encrypted/io_impl.rs: poll_write, poll_flush, write_bytes, poll_read", "src/protocol/encrypted/crypt_handling.rs: CipherBox::encrypt", "src/ipc/stream_emitter/emit_metadata.rs: poll", "src/events/event.rs: into_bytes, from_async_read"]}
{"id": "C87", "title": "What becomes of each event when emits on an encrypted connection are dropped", "statement": "On an encrypted connection with any number of layers, whose callers drop emits at any point, the fate of an event is decided by the first poll of its emit and by what dropped emits have left behind: if nothing is unfinished, the event goes out, in one package with all events that wait; if the write of a dropped emit is unfinished, the event is lost although its emit returns Ok; if only the flush of a dropped emit is unfinished, the event waits for the next package, if all that waits comes to less than 1024 bytes, and else the poll panics, and the event is lost with all that wait; an emit dropped before its first poll loses its event. So at each time every event is exactly one of sent, waiting, lost or not yet polled; the sent ones are on the wire in their packages as far as these are written, the waiting ones are the contents of the buffer, and a peer with the same layers reads exactly the sent ones. Sent and lost are final. A poll panics exactly in the case named, and writes nothing then. After an emit has returned Ok nothing is unfinished, and the next emit that is not dropped sends its event and all that wait. Violated: after a dropped flush, emits of events of 1024 bytes or more panic one after the other, for ever, and no byte goes to the wire until a smaller event is emitted.", "quantifier": "any number of layers, keys and ciphers, any sequence of events that fit, all points at which emits are dropped, all answers of a socket that does not fail, all fragmentations on the way to the peer", "why_tests_cant": "the fate of an event depends on the whole history of dropped emits and on the partial writes of the socket, both unbounded", "anchors": ["src/protocol/encrypted/io_impl.rs: poll_write, poll_flush, write_bytes", "src/ipc/stream_emitter/emit_metadata.rs: poll", "src/events/event.rs: into_bytes, from_async_read"]}
{"id": "C88", "title": "Write errors on connections with encrypted layers", "statement": "On a connection with any number of encrypted layers over a transport that can fail at any time, with emits that are awaited one after the other: no emit panics, also not after errors. On the wire is, of each emit that has got the connection, in this order, a beginning of the packages in packages due for its event (all of them, if it has returned Ok); each layer gives consecutive numbers to its packages, also across errors, so that no nonce is used twice, and nothing of a failed emit is left in any layer that a later emit would send. A poll of an emit adds to the wire if the socket is ready, and an error that an emit returns is one that the socket has answered to this poll (WriteZero if it took nothing). The packages of emits before the first failure are on the wire, complete. If only that deciphers which the innermost layer has encrypted, the peer reads exactly the events whose packages have arrived one after the other from the first on; then an error (InvalidData), if a whole package follows by its length, and else it waits (UnexpectedEof at the end of the stream). Violated: after an emit has failed in the middle of its packages, later emits return Ok, but their events are never read.", "quantifier": "any number of layers, keys and ciphers, any sequence of events that fit, all answers of the socket including errors at any point, all fragmentations on the way to the peer", "why_tests_cant": "an error can come at every byte of every package, any number of times, at any depth of layers", "anchors": ["src/protocol/encrypted/io_impl.rs: poll_write, poll_flush, write_bytes, poll_read", "src/ipc/stream_emitter/emit_metadata.rs: poll", "src/events/event.rs: into_bytes, from_async_read"]}
{"id": "C89", "title": "Emits that are dropped and emits that fail, on the same connection", "statement": "On a connection with any number of encrypted layers, emits are dropped at any point and the transport fails at any point, in any order. A ledger kept only from what callers do and are told says of every event whether it is sent (and in which package), waits, or is lost; every emitted event is in it exactly once, and what is sent stays sent, what is lost stays lost. On the wire are the packages of the ledger, one after the other, with consecutive numbers; of each a beginning, and all of it unless a poll has failed while it was the last or it is unfinished. No nonce is used twice. A poll is pending, with progress if the socket was ready, or the emit is over: with Ok, with an error that the socket has answered to this poll, or with a panic, exactly if it is its first poll, the flush of a dropped emit is unfinished and 1024 bytes or more are waiting with the new frame. The peer reads exactly the events of the packages that have arrived whole, one after the other, from the first on. Violated: after a package is torn by an error nothing is read any more although later emits return Ok; and an event whose emit has returned an error can nevertheless be sent, with the next one.", "quantifier": "any number of layers, keys and ciphers, any sequence of events that fit, of polls, drops and answers of the socket including errors, all fragmentations on the way to the peer", "why_tests_cant": "drops and errors can come at every byte and in every combination, any number of times, at any depth of layers", "anchors": ["src/protocol/encrypted/io_impl.rs: poll_write, poll_flush, write_bytes, poll_read", "src/ipc/stream_emitter/emit_metadata.rs: poll", "src/events/event.rs: into_bytes, from_async_read"]}
{"id": "C90", "title": "Reading from a transport that fails", "statement": "A connection, plain or with any number of encrypted layers, whose transport returns an error from a read at some point (a reset connection, say): it hands on exactly the events it would have handed on if the stream had ended there, that is, for a peer that sent frames or packages, exactly the events that have arrived completely, in order, however the bytes were cut; then the reading ends with exactly that error, unless a frame or package that is not valid came before, which then ends it as it would without the error. Whatever the transport would give after the error is never read. Violated: the read half of an encrypted stream that has returned an error panics if it is polled again, instead of returning an error or the end of the stream.", "quantifier": "any number of layers, ciphers and keys, any bytes in any fragmentation, any point of failure, any error, any later behaviour of the transport; for the events: any history of emits and drops of the sender", "why_tests_cant": "the error can come at every byte and between any two polls, at any depth, after arbitrary bytes", "anchors": ["src/protocol/encrypted/io_impl.rs: poll_read", "src/protocol/encrypted/mod.rs: from_async_read", "src/events/event.rs: from_async_read", "src/ipc/mod.rs: handle_connection", "src/protocol/tcp.rs: poll_read", "src/protocol/unix_socket.rs: poll_read"]}
{"id": "C91", "title": "Setting up encrypted layers over a transport that fails", "statement": "A client that connects, or a server that accepts, with any number of encrypted layers, and whose transport returns an error from a read during the set-up: up to there it has sent exactly what it would have sent over a connection that is closed, or stays silent, at that point; whatever arrived before, it does not panic, and it fails with exactly the error of the transport (never with UnexpectedEof in its place), unless a write has failed, or a package that does not decipher or an untrusted key came before, which it then reports. If the error comes before all that an honest peer sends has arrived, the set-up does not wait for ever but reports the error; if it comes later, the set-up completes, and what is read then is what arrived, followed by the error. A connection is only ever given with peers whose keys are trusted in every layer.", "quantifier": "any number of layers, keys and ciphers, any bytes in any fragmentation, any point of failure, any error, any later behaviour of the transport, any answers to writes and any polls", "why_tests_cant": "the error can come at every byte of every exchange at every depth, with arbitrary bytes before it and any schedule of polls", "anchors": ["src/protocol/encrypted/crypt_handling.rs: EncryptedStream::from_server_key_exchange, from_client_key_exchange", "src/protocol/encrypted/protocol_impl.rs: protocol_connect, protocol_accept", "src/protocol/encrypted/io_impl.rs: poll_read"]}
{"id": "C92", "title": "Shutting down encrypted connections", "statement": "The user of an encrypted stream (with any number of encrypted layers) shuts it down as an AsyncWrite after events have been emitted over it: every layer is flushed, then the socket is asked to shut down, never before; all that was emitted is on the wire; errors of the socket are passed on. If the socket is willing, polling the shutdown once more than there are layers completes it. Violated: after the flush of each layer the poll returns Pending without having asked anybody for a wake-up, so shutdown().await never completes with Ok and the socket is never asked; and from the first of these polls on, nothing that is written is ever sent, every flush and every emit panics, and polls after the completion panic. (Without layers shutdown().await asks the socket at once and returns its first answer.)", "quantifier": "any number of layers, ciphers and keys, any history of events, any answers of the socket in any number of polls, any later writes, flushes and shutdowns", "why_tests_cant": "depends on the depth, on every interleaving of waiting, errors and completion of the socket, and on any sequence of later calls", "anchors": ["src/protocol/encrypted/io_impl.rs: poll_shutdown, poll_flush, poll_write"]}
{"id": "C93", "title": "Keys and nonces over the whole life of a connection with encrypted layers", "statement": "Whoever the peer is and whatever it sends, and whatever is then done with the connection (writes, flushes, shutdowns in any order; emits that are dropped, fail or panic): in every layer, a server encrypts first the key of the session, exactly once, with the secret agreed with a peer it trusts there and the nonce for 0, and everything else with the key of the session, package number j with the nonce for j; a client encrypts everything with the key it has heard under the secret agreed with a peer it trusts, package number j with the nonce for j. So, up to 2^64 packages, no side uses a pair of key and nonce twice in a layer (if the key of the session is not by chance the agreed secret). The two sides of a session use the same key and the same nonce for packages of the same number, and the keys of all sessions between the same two parties are encrypted with the same key and nonce. (A user would expect that neither happens.)", "quantifier": "any number of layers, keys and ciphers, any bytes from the peer, any polls during and after the set-up, also over a transport that fails; any two sessions", "why_tests_cant": "depends on every sequence of polls and drops at every depth, with an arbitrary peer, and on counters of 64 bits", "anchors": ["src/protocol/encrypted/crypt_handling.rs: CipherBox::{encrypt,en_nonce,update_key}, from_server_key_exchange, from_client_key_exchange", "src/protocol/encrypted/mod.rs: EncryptedStream::{new,update_key}", "src/protocol/encrypted/io_impl.rs: poll_write, poll_flush, poll_shutdown"]}
{"id": "C94", "title": "Wake-ups, and reads of any size, on connections with encrypted layers", "statement": "On a connection with any number of encrypted layers, in whatever state, a pending poll to write or flush, and so a pending emit, has registered its task at the socket. A pending poll to read has done so if and only if every layer is in the middle of a package; it misses its wake-up if and only if some layer has just emptied a package without filling the buffer it was given. So read_exact calls return the next bytes as long as each needs no more than what is left of the last package and the next package; the first that needs more never returns, even if all its bytes, or the end of the stream, are there. And if a peer puts the beginning of a package of one layer into packages of the layer below it such that its length is torn, or that it is longer than two of them, no read of that layer ever returns. (A user would expect that a read returns when its bytes are there, and that a layer does not depend on the packages of the layers below it. The library's own traffic is not affected, see C77.)", "quantifier": "all depths, keys and ciphers, states of the layers, answers of the socket; all sequences of packages, cuts of the bytes, and sizes of reads", "why_tests_cant": "all states at all depths, all divisions of the bytes into packages, chunks and reads", "anchors": ["src/protocol/encrypted/io_impl.rs: poll_read, poll_write, poll_flush", "src/protocol/encrypted/mod.rs: EncryptedStream, EncryptedPackage::from_async_read"]}
{"id": "C95", "title": "Handlers of a connection run side by side", "statement": "An event that is not a reply to a request being listened for and not an End event starts its handler as soon as the receive loop reads it, whatever the other handlers are doing: no event waits for the handler of an earlier one. So, in every state in which a connection is being read, any number of handlers can run at the same time (the library sets no limit), and their answers can be written in any order, whatever they return: the order of requests says nothing about the order of the answers. A running handler can always return and have its answer written, also when the receive loop of its connection is blocked, has ended or was stopped, and this affects no other handler or connection.", "quantifier": "all states of an endpoint, all lists of events that start handlers, all results of the handlers, all orders of the answers", "why_tests_cant": "all numbers of handlers, all orders, all states", "anchors": ["src/ipc/mod.rs: handle_connection, handle_event"]}
{"id": "C96", "title": "Emitted events start handlers exactly once, in order", "statement": "Between two endpoints, joined by any number of plain or encrypted connections: of the events that one side emits on a connection with the connection's context, the other side starts exactly one handler each, in the order in which they were emitted, and at any time those whose handlers have been started are the first ones, with none left out; the handler runs the callback registered for the event's name in its namespace (or globally, if the namespace is not registered). Under fair scheduling a handler is started for every one of them, unless the other side stops reading the connection. On encrypted connections on which emits are dropped some are left out, but the order stays and none is handled twice. Between two connections there is no such order.", "quantifier": "all executions of both endpoints, all numbers of connections and their layers, all fragmentations of the bytes", "why_tests_cant": "all interleavings and fragmentations, and executions that never end", "anchors": ["src/ipc/context.rs: emit", "src/ipc/mod.rs: handle_connection, handle_event", "src/ipc/stream_emitter/mod.rs: StreamEmitter"]}
{"id": "C97", "title": "Connections of limited capacity: when two endpoints wait for each other for ever", "statement": "If the connections between two endpoints hold only so much, so that writing an event waits for room, then everything the endpoints can get to see is what they can get to see without that limit. Whoever waits for room on a connection can get it by nothing but the receive loops of the other side going on and the replies there being read, without anybody writing anything. But the receive loop of a connection stops while a reply stream has 8 unread replies (C25); so if on both sides of a connection a reply stream is not being read and the connection is full in both directions, nothing is written or dealt with on it by either side until one of these two streams is read, dropped or times out, or the connection is stopped: if both readers first want to write something on the connection, they wait for ever. For every capacity two endpoints can get there just by replying to each other faster than the streams are read. Even then, every pending await_reply or stream_replies (whose connection is still read on both sides and whose handler has not panicked) can still get its answer by nothing but the receive loops, handlers and readers going on, if the connections take any event when they are empty. (A user would expect that two sides that are both only writing and reading cannot block each other for ever.)", "quantifier": "all executions of both endpoints, all capacities of the connections (any rule for when there is room), everything else that may happen", "why_tests_cant": "all interleavings and capacities; that something never happens whatever else does", "anchors": ["src/ipc/mod.rs: handle_connection", "src/ipc/context.rs: register_reply_listener", "src/ipc/stream_emitter/emit_metadata.rs: EmitMetadata"]}
{"id": "C98", "title": "Connections of limited capacity under fair scheduling: as if there were no limit", "statement": "Let two endpoints be joined by connections that hold only so much, so that writing an event waits for room, and let them be scheduled fairly: receive loops, handlers and whoever waits for a reply keep being polled, and a write is not passed over for ever if there is room for it again and again. Then what has been written on a connection that the other side keeps reading is dealt with there, in its place, whether or not the other side gets to write anything itself; so there is room on it again and again, for any event. On every connection that is kept being read, whatever happens on the others, every handler gets to write its answer; if both sides keep reading it, every pending request on it is written, and its await_reply or stream_replies gets the answer, just as without a limit - unless the request times out, is dropped or cannot be written, or the handler panics or cannot write its answer.", "quantifier": "all infinite fair executions of both endpoints, all capacities (any rule for when there is room that depends on what is under way and leaves room when nothing is)", "why_tests_cant": "infinite executions and all schedules; liveness", "anchors": ["src/ipc/mod.rs: handle_connection", "src/ipc/context.rs: register_reply_listener", "src/ipc/stream_emitter/emit_metadata.rs: EmitMetadata", "src/ipc/stream_emitter/emit_metadata_with_response.rs: EmitMetadataWithResponse"]}
