{
 "claims": [
  {
   "property": "C01",
   "status": "proved",
   "theorems": [
    "Bromine.Props.C01_roundtrip",
    "Bromine.Props.C01_roundtrip_iff",
    "Bromine.Props.C01_injective"
   ],
   "note": "C01_roundtrip: an event that the format can represent is read back exactly, and exactly its frame is consumed, whatever follows. C01_roundtrip_iff: exactness: the representable events are precisely those that survive the round trip. C01_injective: encoding is injective on representable events."
  },
  {
   "property": "C02",
   "status": "proved",
   "theorems": [
    "Bromine.Props.C02_back_to_back",
    "Bromine.Props.C02_applies"
   ],
   "note": "C02_back_to_back: `es` are written back to back, possibly followed by an unfinished frame `p`. Whatever the chunking and the waits, the receiving loop yields exactly `es` and then stops with EOF (connection closed) or keeps waiting (connection open). C02_applies: The frames of any representable events exist, so C02 applies to any list of them."
  },
  {
   "property": "C03",
   "status": "proved",
   "theorems": [
    "Bromine.Props.C03_truncated",
    "Bromine.Props.C03_truncated_layout"
   ],
   "note": "C03_truncated: a transport that delivers any strict prefix `p` of a frame and is then closed gives an i/o error (and an open one keeps waiting). C03_truncated_layout: for frames of any minor version with unknown header bytes."
  },
  {
   "property": "C04",
   "status": "proved",
   "theorems": [
    "Bromine.Props.C04_decoder_iff",
    "Bromine.Props.C04_unambiguous",
    "Bromine.Props.C04_decoder_iff_transport"
   ],
   "note": "C04_decoder_iff: (reader holding `r` and then EOF): an event is returned iff the input starts with a frame that carries exactly this event. C04_unambiguous: at most one event can be read from given bytes: the layout is unambiguous. C04_decoder_iff_transport: on a transport that delivers its bytes in arbitrary chunks with arbitrary waits."
  },
  {
   "property": "C05",
   "status": "proved",
   "theorems": [
    "Bromine.Props.C05_extra_ignored",
    "Bromine.Props.C05_insert_header_bytes"
   ],
   "note": "C05_extra_ignored: a frame with appended header bytes gives the same event, payload and rest as the one without. C05_insert_header_bytes: the frame obtained by inserting `extra` behind the header of the encoding of `e` and adapting both length fields is read as `e`, with the following frame undisturbed."
  },
  {
   "property": "C06",
   "status": "proved",
   "theorems": [
    "Bromine.Props.C06_foreign_major",
    "Bromine.Props.C06_minor_ignored",
    "Bromine.Props.C06_text_tells_version"
   ],
   "note": "C06_foreign_major: negative half: a frame whose header starts with version bytes `a b c`, `a ≠ 0`, is refused with the text `a.b.c`. The first hypothesis on the lengths excludes the malformed frames of C08. C06_minor_ignored: positive half: changing only the minor version bytes does not change what is decoded. C06_text_tells_version: the text of the refusal tells the version: different versions have different texts."
  },
  {
   "property": "C07",
   "status": "proved",
   "theorems": [
    "Bromine.Props.C07_faithful",
    "Bromine.Props.C07_violated_iff",
    "Bromine.Props.C07_silent_loss",
    "Bromine.Props.C07_empty_namespace",
    "Bromine.Props.C07_oversized_name_misread"
   ],
   "note": "Exact: C07_violated_iff (for which events) with C07_faithful; C07_silent_loss, C07_empty_namespace and C07_oversized_name_misread show what a user would not expect."
  },
  {
   "property": "C08",
   "status": "proved",
   "theorems": [
    "Bromine.Props.C08_panic_iff",
    "Bromine.Props.C08_no_panic",
    "Bromine.Props.C08_no_hang",
    "Bromine.Props.C08_violated_debug",
    "Bromine.Props.C08_violated_release",
    "Bromine.Props.C08_no_panic_applies",
    "Bromine.Props.C08_read_loop"
   ],
   "note": "Exact: C08_panic_iff; C08_no_panic is the half a user relies on, the C08_violated_* theorems show panicking inputs."
  },
  {
   "property": "C09",
   "status": "proved",
   "theorems": [
    "Bromine.Props.C09_error_decoder_iff",
    "Bromine.Props.C09_error_roundtrip",
    "Bromine.Props.C09_error_oversized"
   ],
   "note": "C09_error_decoder_iff: the decoder accepts exactly the documented layout and returns exactly the encoded values. C09_error_roundtrip: round trip of every code and every message below 4 GiB, whatever follows. C09_error_oversized: exactness of the bound: a longer message never survives."
  },
  {
   "property": "C10",
   "status": "proved",
   "theorems": [
    "Bromine.Props.C10_halves_independent",
    "Bromine.Props.C10_tandem_roundtrip",
    "Bromine.Props.C10_tandem_enc_error",
    "Bromine.Props.C10_nested_roundtrip"
   ],
   "note": "C10_halves_independent: independence: decoding a tandem that holds `b1` and `b2` decodes each half from exactly its own bytes, whatever the halves leave unread and whatever follows. C10_tandem_roundtrip: a tandem of two values that round-trip round-trips, and exactly the tandem's bytes are consumed. C10_tandem_enc_error: a tandem reports the first failing half. C10_nested_roundtrip: nesting to any depth and of any shape."
  },
  {
   "property": "C11",
   "status": "proved",
   "theorems": [
    "Bromine.Props.C11_byte_payload",
    "Bromine.Props.C11_byte_payload_event",
    "Bromine.Props.C11_unit_event"
   ],
   "note": "C11_byte_payload: the bytes on the wire are the payload's bytes, and decoding takes all the bytes there are. C11_byte_payload_event: through an event: what the peer's `payload::<BytePayload>()` returns is what was sent. C11_unit_event: for `()`, built without serde: an event emitted with `()` has no data, and arrives as such."
  },
  {
   "property": "C12",
   "status": "proved",
   "theorems": [
    "Bromine.Props.C12_serde_roundtrip",
    "Bromine.Props.C12_default_roundtrip",
    "Bromine.Props.C12_disabled_sender",
    "Bromine.Props.C12_disabled_receiver",
    "Bromine.Props.C12_decodes_with_declared_format"
   ],
   "note": "C12_serde_roundtrip: a value encoded with format `f` on one build is decoded as the same value, with the same format recorded, on every build that has `f` enabled, whatever else is enabled there. C12_default_roundtrip: through the blanket impls (`emit(name, value)` and `event.payload::<T>()`): the receiver's own default serializer is irrelevant. C12_disabled_sender: encoding with a format that is not enabled is refused. C12_disabled_receiver: a payload whose format id is unknown or not enabled here is refused with that id; the format crates are not called (the result does not depend on `impl`). C12_decodes_with_declared_format: if a payload decodes at all, then with the enabled format whose id is its first byte, applied to the rest."
  },
  {
   "property": "C13",
   "status": "proved",
   "theorems": [
    "Bromine.Props.C13_first_available",
    "Bromine.Props.C13_exists",
    "Bromine.Props.C13_default_usable"
   ],
   "note": "C13_first_available: `first_available` exists (the build compiles) iff some format is enabled, and then it is the enabled format of highest preference. C13_exists: a build with at least one format has a default serializer. C13_default_usable: serialising with the default never reports `UnavailableFormat`."
  },
  {
   "property": "C14",
   "status": "proved",
   "theorems": [
    "Bromine.Props.C14_repeats_are_apart",
    "Bromine.Props.C14_ids_unique",
    "Bromine.Props.C14_nodup",
    "Bromine.Props.C14_violated",
    "Bromine.Props.C14_violated_execution",
    "Bromine.Props.C14_clock_before_epoch",
    "Bromine.Props.C14_own_reading"
   ],
   "note": "C14_ids_unique, C14_nodup and C14_repeats_are_apart; C14_violated and C14_violated_execution show repetition after 2^32 events. The counter is atomic, so the history of ids is a sequence; the clock is arbitrary."
  },
  {
   "property": "C15",
   "status": "proved",
   "theorems": [
    "Bromine.Props.C15_constructors",
    "Bromine.Props.C15_end_violated"
   ],
   "note": "C15_end_violated shows the type of Event::end that the statement mentions."
  },
  {
   "property": "C16",
   "status": "proved",
   "theorems": [
    "Bromine.Props.C16_emit",
    "Bromine.Props.C16_emit_to",
    "Bromine.Props.C16_emit_raw"
   ],
   "note": "C16_emit: . Polling `ctx.emit(name, payload)` any number of times, in any environment, writes exactly the expected event (no namespace; initiator on a connection context, a response to the handled event in a handler) and returns its id. C16_emit_to: for `emit_to`: the same with the given namespace. C16_emit_raw: for the final answer of a handler (`emit_raw`): type, name and namespace as given, the reference is the context's."
  },
  {
   "property": "C17",
   "status": "proved",
   "theorems": [
    "Bromine.Props.C17_failed_payload",
    "Bromine.Props.C17_failed_payload_to"
   ],
   "note": "C17_failed_payload: (and C48). If converting the payload fails, `emit`, `await_reply` and `stream_replies` return that error at the first poll, have no effect at all (nothing written, no listener registered), and every further poll reports `InvalidState` without any effect. C17_failed_payload_to: for events with a namespace."
  },
  {
   "property": "C18",
   "status": "proved",
   "theorems": [
    "Bromine.Props.C18_no_interleaving",
    "Bromine.Props.C18_peer_reads",
    "Bromine.Props.C18_order",
    "Bromine.Props.C18_lock_released"
   ],
   "note": "C18_no_interleaving: . However any number of tasks emit concurrently on one connection, as long as no write is broken off in the middle, the bytes on the wire are complete frames, in the order in which the emitters got the connection, followed by at most a part of the frame being written; every event whose emit has returned is among the complete ones. C18_peer_reads: as seen by the peer: it reads exactly the completely written events, in this order, however the transport cuts the bytes. C18_order: order. Bytes on the wire are never changed. An emit that has returned got the connection before any emit that was started later, so its frame precedes the other one's. C18_lock_released: The connection is never blocked by a finished or dropped emit: whoever holds it is still writing, and if nobody holds it any waiting emit can get it."
  },
  {
   "property": "C19",
   "status": "proved",
   "theorems": [
    "Bromine.Props.C19_drop_harmless",
    "Bromine.Props.C19_wire_exact",
    "Bromine.Props.C19_drop_releases",
    "Bromine.Props.C19_read_before_torn",
    "Bromine.Props.C19_violated_altered",
    "Bromine.Props.C19_violated"
   ],
   "note": "C19_drop_harmless, C19_drop_releases, C19_wire_exact, C19_read_before_torn; C19_violated shows a torn frame."
  },
  {
   "property": "C20",
   "status": "proved",
   "theorems": [
    "Bromine.Props.C20_correlated"
   ],
   "note": "C20_correlated: **C20.** Everything a request has received (returned by `await_reply` or yielded by the stream) refers to the event emitted by that request, and was received from a peer on a connection sharing its listener map."
  },
  {
   "property": "C21",
   "status": "proved",
   "theorems": [
    "Bromine.Props.C21_registered_before_write",
    "Bromine.Props.C21_registered_before_write_to",
    "Bromine.Props.C21_no_reply_missed",
    "Bromine.Props.C21_delivered_is_received",
    "Bromine.Props.C21_violated"
   ],
   "note": "C21_no_reply_missed, with the proviso of the statement; C21_violated shows what happens without it."
  },
  {
   "property": "C22",
   "status": "proved",
   "theorems": [
    "Bromine.Props.C22_stream_started",
    "Bromine.Props.C22_stream_items",
    "Bromine.Props.C22_stream_effects",
    "Bromine.Props.C22_complete",
    "Bromine.Props.C22_prefix",
    "Bromine.Props.C22_end_is_last",
    "Bromine.Props.C22_nothing_after_end",
    "Bromine.Props.C22_ended_by_end"
   ],
   "note": "C22_stream_started: A stream is created only when the event is on the wire, with the emitted event's id, and its listener was registered before: as for `await_reply`. C22_stream_items: poll level. A reply stream that does not run into its timeout yields, poll by poll, exactly what arrives in its channel, up to and including the first End event, and nothing after it. C22_stream_effects: **C22, C24: what a reply stream does.** A reply stream that does not run into its timeout removes its listener when it gives the End event (or finds its channel closed), and does nothing else. C22_complete: **C22.** What a waiting request has received, followed by what waits in its channel, is exactly the sequence of events that refer to it and were received since its registration, in arrival order, nothing lost or doubled. See THEOREMS.md for the others."
  },
  {
   "property": "C23",
   "status": "proved",
   "theorems": [
    "Bromine.Props.C23_await_error",
    "Bromine.Props.C23_await_ok",
    "Bromine.Props.C26_answered_once"
   ],
   "note": "C23_await_error: caller's side. If the first reply that a request receives is an Error event whose payload is a (code, message) pair, `await_reply` returns `Err(ErrorEvent)` with this code and message; for every number of polls before. C23_await_ok: caller's side. Any other first reply is returned as it is."
  },
  {
   "property": "C24",
   "status": "proved",
   "theorems": [
    "Bromine.Props.C24_replied_leaves_nothing",
    "Bromine.Props.C24_listener_iff",
    "Bromine.Props.C24_leak",
    "Bromine.Props.C24_late_reply",
    "Bromine.Props.C24_violated"
   ],
   "note": "Exact: C24_listener_iff; C24_leak, C24_late_reply, C24_violated show the effect of listeners that are left."
  },
  {
   "property": "C25",
   "status": "proved",
   "theorems": [
    "Bromine.Props.C25_capacity",
    "Bromine.Props.C25_goes_on",
    "Bromine.Props.C25_goes_on_iff",
    "Bromine.Props.C25_takes",
    "Bromine.Props.C25_blocked",
    "Bromine.Props.C25_violated"
   ],
   "note": "Exact: C25_goes_on_iff; C25_blocked and C25_violated show the effect of a slow stream."
  },
  {
   "property": "C26",
   "status": "proved",
   "theorems": [
    "Bromine.Props.C26_no_callback",
    "Bromine.Props.C26_emitted_refers",
    "Bromine.Props.C26_answered_unless_write_fails",
    "Bromine.Props.C26_can_answer",
    "Bromine.Props.C26_violated_panic",
    "Bromine.Props.C26_violated_can_panic",
    "Bromine.Props.C26_answered_once",
    "Bromine.Props.C26_not_before",
    "Bromine.Props.C26_answer_is_after"
   ],
   "note": "C26_violated_panic is the case of a handler that panics, which the statement mentions."
  },
  {
   "property": "C27",
   "status": "proved",
   "theorems": [
    "Bromine.Props.C27_routing",
    "Bromine.Props.C27_callback",
    "Bromine.Props.C27_violated_spec"
   ],
   "note": "The deviation from SPECIFICATION.md that the statement mentions is C27_violated_spec."
  },
  {
   "property": "C28",
   "status": "proved",
   "theorems": [
    "Bromine.Props.C28_in_order",
    "Bromine.Props.C28_exactly_once",
    "Bromine.Props.C28_reply_not_handled"
   ],
   "note": "C28_in_order: **C28.** What has arrived on a connection is, in this order: the events that have been dealt with, the one event that the receive loop holds (while it waits for room in a channel), and the events not yet taken. C28_exactly_once: **C28.** Dealing with an event means exactly one of: delivered to one request, given to one handler task, or discarded if it is an End event; and conversely every handler task was made for exactly one received event. C28_reply_not_handled: **C28.** A reply to a request that is waiting never reaches a handler."
  },
  {
   "property": "C29",
   "status": "proved",
   "theorems": [
    "Bromine.Props.C29_discarded",
    "Bromine.Props.C29_end_unanswered",
    "Bromine.Props.C29_violated",
    "Bromine.Props.C29_discarded_iff",
    "Bromine.Props.C29_violated_race",
    "Bromine.Props.C29_no_ping_pong"
   ],
   "note": "C29_no_ping_pong, and exactly C29_discarded_iff; C29_violated and C29_violated_race show End events that are answered."
  },
  {
   "property": "C30",
   "status": "proved",
   "theorems": [
    "Bromine.Props.C30_last_registration",
    "Bromine.Props.C30_global_handlers",
    "Bromine.Props.C30_namespaces",
    "Bromine.Props.C30_settings"
   ],
   "note": "C30_last_registration: a handler built by any sequence of `on` calls serves a name with the callback registered last for that name, and with nothing if there was none. C30_global_handlers: after any sequence of builder calls, a global event name is served by the last callback registered for it; without any, \"error\" is served by the default callback and every other name by none. C30_namespaces: after any sequence of builder calls, the handlers of a namespace are those of the namespace added last under that name, none of the earlier ones; a name never added is not registered. C30_settings: every other setting is the one given last, or its default (60 s, the first available format, the default options)."
  },
  {
   "property": "C31",
   "status": "proved",
   "theorems": [
    "Bromine.Props.C31_missing_address",
    "Bromine.Props.C31_single_connection",
    "Bromine.Props.C31_pool_zero",
    "Bromine.Props.C31_pool_success",
    "Bromine.Props.C31_pool_failure",
    "Bromine.Props.C31_acquire_never_panics",
    "Bromine.Props.C31_empty_pool_panics"
   ],
   "note": "C31_missing_address: without an address, every build fails with a `BuildError` and does nothing on the network. C31_single_connection: with an address, exactly one connection (or bind) to the address given last, with the options given last, and its outcome is the result. C31_pool_zero: a pool of size zero is refused, whatever the configuration, without touching the network. C31_pool_success: a pooled build that succeeds made exactly `n` connections to the given address and the pool consists of them, in order. C31_pool_failure: if the `m`-th connection attempt is the first to fail, its error is the result and no further attempt is made. C31_acquire_never_panics: **C31.** On a pool with at least one connection (the builder refuses others, `C31_pool_zero`) `acquire` never panics, whatever other threads do. C31_empty_pool_panics: The check in the builder is needed: without connections `acquire` would panic."
  },
  {
   "property": "C32",
   "status": "proved",
   "theorems": [
    "Bromine.Props.C32_exact",
    "Bromine.Props.C32_exact_while_alive",
    "Bromine.Props.C32_single_handle",
    "Bromine.Props.C32_no_underflow",
    "Bromine.Props.C32_reads_exact",
    "Bromine.Props.C32_wraps_at_the_end",
    "Bromine.Props.C32_drop_completes",
    "Bromine.Props.C32_clone_completes"
   ],
   "note": "C32_exact: **C32.** At every moment (also in the middle of an `acquire`, `clone` or `drop` of any threads) the usage count of a pooled connection is the number of its live guards beyond the first, as long as there is a live guard for it; the number of guards is limited by the size of `usize`. C32_exact_while_alive: **C32.** In particular it is exact as long as a pool handle is alive. C32_single_handle: **C32.** With a single pool handle the usage count is the number of guards that have been acquired or cloned and not yet dropped. C32_no_underflow: **C32.** While a pool handle is alive, dropping a guard never makes the count underflow: it goes down by one. C32_reads_exact: **C32.** A count is only ever read while a pool handle is alive, so every count that `acquire` compares is exact. See THEOREMS.md for the others."
  },
  {
   "property": "C33",
   "status": "proved",
   "theorems": [
    "Bromine.Props.C33_least_of_loaded",
    "Bromine.Props.C33_first_least",
    "Bromine.Props.C33_balanced",
    "Bromine.Props.C33_round_robin",
    "Bromine.Props.C33_race"
   ],
   "note": "C33_least_of_loaded: **C33.** Whatever happens in other threads, `acquire` returns the first of the connections whose count, as loaded by this call, was least. C33_first_least: **C33.** An `acquire` that is not disturbed succeeds and returns the first of the connections with the least number of live guards; this number then goes up by one, and nothing else changes. C33_balanced: **C33.** From a state in which the usage counts differ by at most one, any number of acquires without releases keeps it so. C33_round_robin: **C33.** `m` acquires on a fresh pool go round robin: call number `k` gets connection `k mod n`. C33_race: **C33, concurrent calls.** Loading the counters and counting the new guard is not one step: two concurrent acquires can both get the first connection although the second one is unused."
  },
  {
   "property": "C34",
   "status": "proved",
   "theorems": [
    "Bromine.Props.C34_stop_succeeds",
    "Bromine.Props.C34_abort_takes_effect",
    "Bromine.Props.C34_nothing_dispatched_after",
    "Bromine.Props.C34_only_stop_ends",
    "Bromine.Props.C34_only_stop_stops",
    "Bromine.Props.C34_violated"
   ],
   "note": "C34_violated is the gap between the return of stop and the abort, which the statement mentions."
  },
  {
   "property": "C35",
   "status": "proved",
   "theorems": [
    "Bromine.Props.C35_served_in_order",
    "Bromine.Props.C35_violated_accept",
    "Bromine.Props.C35_violated_stranger",
    "Bromine.Props.C35_plain_ends_iff",
    "Bromine.Props.C35_encrypted_ends_only",
    "Bromine.Props.C35_exchange_decides"
   ],
   "note": "C35_served_in_order, C35_plain_ends_iff, C35_encrypted_ends_only, C35_exchange_decides; the C35_violated_* theorems show how a stranger ends the server."
  },
  {
   "property": "C36",
   "status": "proved",
   "theorems": [
    "Bromine.Props.C36_isolated",
    "Bromine.Props.C36_pool_shares"
   ],
   "note": "C36_isolated: **C36.** If every connection has its own listener map (as on a server), a request only receives events that came in on the connection on which it was emitted. C36_pool_shares: On the contrary the connections of a pooled client share their listeners: a reply received on connection 1 is delivered to a request emitted on connection 0."
  },
  {
   "property": "C37",
   "status": "proved",
   "theorems": [
    "Bromine.Props.C37_nonces",
    "Bromine.Props.C37_distinct"
   ],
   "note": "C37_nonces: . Whatever polls a write half gets from whatever tasks, and however the transport answers: its encryptions are all done under the session key, encryption number `i` (from 0) uses the nonce with number `i`, and the numbers of two encryptions with the same nonce differ by a multiple of 2^64. C37_distinct: among the first 2^64 encryptions no nonce occurs twice."
  },
  {
   "property": "C38",
   "status": "proved",
   "theorems": [
    "Bromine.Props.C38_violated",
    "Bromine.Props.C38_directions_iff",
    "Bromine.Props.C38_violated_sessions"
   ],
   "note": "Exact within a session: C38_directions_iff (two directions), C37_nonces (one direction); C38_violated, C38_violated_sessions show the reuse."
  },
  {
   "property": "C39",
   "status": "proved",
   "theorems": [
    "Bromine.Props.C39_roundtrip",
    "Bromine.Props.C39_prefix_iff",
    "Bromine.Props.C39_cut",
    "Bromine.Props.C39_cut_flush",
    "Bromine.Props.C39_violated"
   ],
   "note": "Exact: C39_prefix_iff with C39_roundtrip; C39_violated is the failure of events within 16 bytes of 2^32."
  },
  {
   "property": "C40",
   "status": "proved",
   "theorems": [
    "Bromine.Props.C40_wire",
    "Bromine.Props.C40_peer_reads",
    "Bromine.Props.C40_fails_only_with_transport",
    "Bromine.Props.C40_progress"
   ],
   "note": "C40_wire: the wire. Any number of tasks emit events on one encrypted connection, in any schedule, with any partial writes, pending answers and sizes below 4 GiB; as long as no emit that holds the connection is dropped or fails, what is on the wire is the sequence of the packages of the events in the order in which their emits got the connection, the last one possibly not complete. If nobody holds the connection, all are complete. Every emit that has returned `Ok` is among them. C40_peer_reads: the peer. Whatever the schedule of the emitters and however the transport cuts the bytes: the peer, with the same session key, reads exactly the events in the order in which their emits got the connection (without the last one, if its package is not complete yet), and then waits or sees the end of the stream. See THEOREMS.md for the others."
  },
  {
   "property": "C41",
   "status": "proved",
   "theorems": [
    "Bromine.Props.C41_agreement",
    "Bromine.Props.C41_completes"
   ],
   "note": "C41_agreement: . Over an undisturbed connection, for all secrets, in every schedule, with every division of reads and writes, also if the transport fails or a side is closed: when both sides have completed the exchange, they start a session with the same key, the one that the server generated, with all counters zero; what is left unread on a side is exactly what the other side has sent after it had completed the exchange (which the server may do before the client has). C41_completes: if the sides trust each other and the transport works, no side fails or panics; and at every moment of every schedule the exchange can be completed by three more polls that find a transport that takes what it is given and has delivered what was sent."
  },
  {
   "property": "C42",
   "status": "proved",
   "theorems": [
    "Bromine.Props.C42_server_refuses",
    "Bromine.Props.C42_client_refuses",
    "Bromine.Props.C42_trusted_pass",
    "Bromine.Props.C42_encodings",
    "Bromine.Props.C42_default_options",
    "Bromine.Props.C42_served_are_trusted"
   ],
   "note": "C42_server_refuses: the server. Whatever bytes arrive, in whatever pieces: if the first 32 of them are not a trusted key, the server sends nothing at all and the exchange never succeeds; the result, if there is one, is `UnknownPeer` with that key (or the end of the stream). A poll that gets the key gives that result. C42_client_refuses: the client: if the first 32 bytes that arrive are not a trusted key, the client does not send anything but (part of) its own public key, and the exchange never succeeds; the error is `UnknownPeer` with that key, or an i/o error. C42_trusted_pass: a trusted key is never refused, on either side. C42_encodings: the check is about the point, not its bytes: another encoding of a listed key is as good as the listed one, and leads to the same shared secret. See THEOREMS.md for the others."
  },
  {
   "property": "C43",
   "status": "proved",
   "theorems": [
    "Bromine.Props.C43_prefix",
    "Bromine.Props.C43_positions",
    "Bromine.Props.C43_violated_reflection"
   ],
   "note": "C43_prefix for one direction, C43_positions for both; C43_violated_reflection shows the reflection. Unforgeability is a hypothesis about the bytes that arrive, as explained in DESIGN.md."
  },
  {
   "property": "C44",
   "status": "proved",
   "theorems": [
    "Bromine.Props.C44_violated",
    "Bromine.Props.C44_woken",
    "Bromine.Props.C44_lost_wakeup_iff",
    "Bromine.Props.C44_own_traffic"
   ],
   "note": "Exact: C44_lost_wakeup_iff; C44_violated shows the read that never returns, C44_own_traffic that the library is not affected."
  },
  {
   "property": "C45",
   "status": "proved",
   "theorems": [
    "Bromine.Props.C45_wire_intact",
    "Bromine.Props.C45_peer_reads",
    "Bromine.Props.C45_peer_reads_applies",
    "Bromine.Props.C45_drop_waiting",
    "Bromine.Props.C45_violated_lost",
    "Bromine.Props.C45_violated_dropped_flush"
   ],
   "note": "C45_wire_intact, C45_peer_reads, C45_drop_waiting; C45_violated_lost and C45_violated_dropped_flush show what a later emit suffers."
  },
  {
   "property": "C46",
   "status": "proved",
   "theorems": [
    "Bromine.Props.C46_end_to_end",
    "Bromine.Props.C46_await_reply",
    "Bromine.Props.C46_final_result"
   ],
   "note": "C46_end_to_end: **C46.** Everything a request has received was emitted by the one handler task of the other side that handled the event of this very request, and it is a prefix of what that task emitted: for any number of concurrent requests, connections and handlers. C46_await_reply: **C46 for `await_reply`.** The reply is the first event that the handler of the request emitted, or its final answer if it emitted none. C46_final_result: **C46: the End or Error event that a request receives is the answer made from the result of its handler.**"
  },
  {
   "property": "C47",
   "status": "proved",
   "theorems": [
    "Bromine.Props.C47_default_error_handler",
    "Bromine.Props.C47_error_exchange_ends",
    "Bromine.Props.C47_condition_needed"
   ],
   "note": "C47_default_error_handler: **C47.** An event with a well-formed error payload handled by the default error handler is answered by an End event without payload and nothing else. C47_error_exchange_ends: **C47.** If the first endpoint handles an error event with its default error handler, then all that it emits for it is one End event without payload, and no handler of the other side ever handles that End event: the exchange is over. C47_condition_needed: **C47, without a default error handler.** If both sides have an error handler of their own that fails, one emitted event leads to any number of error events, although nobody emits anything any more: the library itself does not stop the exchange. The condition of C47 is needed."
  },
  {
   "property": "C48",
   "status": "proved",
   "theorems": [
    "Bromine.Props.C48_ended_stream",
    "Bromine.Props.C48_violated_after_timeout",
    "Bromine.Props.C48_emit_again",
    "Bromine.Props.C48_await_reply_again",
    "Bromine.Props.C48_stream_replies_again",
    "Bromine.Props.C48_polled_emit_reused",
    "Bromine.Props.C48_stream_panics_iff"
   ],
   "note": "Exact: C48_emit_again, C48_await_reply_again, C48_stream_replies_again, C48_polled_emit_reused, C48_stream_panics_iff; C48_violated_after_timeout is the panic."
  },
  {
   "property": "C49",
   "status": "proved",
   "theorems": [
    "Bromine.Props.C49_error_payload_safe",
    "Bromine.Props.C49_tandem_panics",
    "Bromine.Props.C49_tandem_panic_iff"
   ],
   "note": "Exact: C49_tandem_panic_iff; error payloads never panic."
  },
  {
   "property": "C50",
   "status": "proved",
   "theorems": [
    "Bromine.Props.C50_timeout_only_when_due",
    "Bromine.Props.C50_await_reply_steps",
    "Bromine.Props.C50_await_reply_steps_to",
    "Bromine.Props.C50_stream_replies_steps",
    "Bromine.Props.C50_stream_replies_steps_to",
    "Bromine.Props.C50_stream_times_out"
   ],
   "note": "C50_timeout_only_when_due: . A request never reports a timeout unless its own timer has fired (or the transport itself reported that error). C50_await_reply_steps: **C20, C21, C24, C50: `await_reply`, poll by poll.** However it is polled: the first poll registers the listener before anything else; after that every poll is one of `RequestStep`. In particular the listener is removed exactly in the poll that returns a reply (not after a timeout or a failed write), and a request whose event is written does not stay pending once its timer (the given timeout, else the default) has fired. C50_await_reply_steps_to: The same for `emit_to`. C50_stream_replies_steps: **C21, C50: `stream_replies`, poll by poll.** The listener is registered first, then the event is written; as soon as it is, the stream for its id is returned, with the given timeout (else the default one). See THEOREMS.md for the others."
  },
  {
   "property": "C51",
   "status": "proved",
   "theorems": [
    "Bromine.Props.C51_never_closed",
    "Bromine.Props.C51_lost_connection"
   ],
   "note": "C51_never_closed: **C51.** As long as ids are not reused, no request ends because its channel was closed: `await_reply` never returns `SendError` and a reply stream never ends with `None` before its End event. C51_lost_connection: **C51.** After the connection is lost (and, for pooled clients, all connections of the pool), a request without an unread reply gets none any more: it waits until its timeout fires or it is dropped."
  },
  {
   "property": "C52",
   "status": "proved",
   "theorems": [
    "Bromine.Props.C52_plain",
    "Bromine.Props.C52_violated"
   ],
   "note": "C52_violated is the blocked encrypted server that the statement mentions."
  },
  {
   "property": "C53",
   "status": "proved",
   "theorems": [
    "Bromine.Props.C53_violated_read_again",
    "Bromine.Props.C53_violated_read_exact",
    "Bromine.Props.C53_violated_shutdown",
    "Bromine.Props.C53_shutdown_rest"
   ],
   "note": "States what the code does; a user may expect the opposite."
  },
  {
   "property": "C54",
   "status": "proved",
   "theorems": [
    "Bromine.Props.C54_violated_server",
    "Bromine.Props.C54_client"
   ],
   "note": "C54_client is what a client can rely on; C54_violated_server shows that a server learns nothing."
  },
  {
   "property": "C55",
   "status": "proved",
   "theorems": [
    "Bromine.Props.C55_violated_replay",
    "Bromine.Props.C55_violated_events",
    "Bromine.Props.C55_only_recorded"
   ],
   "note": "C55_violated_replay and C55_violated_events: the replay; C55_only_recorded: its limit."
  },
  {
   "property": "C56",
   "status": "proved",
   "theorems": [
    "Bromine.Props.C56_start_result"
   ],
   "note": "C56_start_result: in every run, `start` has returned the error `e` exactly if binding the listener failed with `e`; every other end is `Ok`. Nobody is served before the listener is bound, and nobody after `start` has returned."
  },
  {
   "property": "C57",
   "status": "proved",
   "theorems": [
    "Bromine.Props.C57_faithful",
    "Bromine.Props.C57_refines",
    "Bromine.Props.C57_end_to_end",
    "Bromine.Props.C57_final_result"
   ],
   "note": "C57_faithful: **C57, one direction of a connection.** Whatever the emitters, the transport and the receiver do, in any order, with any partial writes and reads: the events read are those emitted, in order, none lost, doubled or changed. C57_refines: **C57, refinement.** However the bytes are written, cut, delayed and delivered: what the two endpoints can get to see is what they can get to see if events arrive as a whole and in order. All properties of two joined endpoints carry over. C57_end_to_end: **C57, end to end.** Two endpoints joined by any number of plain and encrypted connections, any number of concurrent requests and handlers, any fragmentation of the bytes: everything a request has received was emitted by the one handler task of the other side that handled the event of this request, and is a prefix of what that task emitted. See THEOREMS.md for the others."
  },
  {
   "property": "C58",
   "status": "proved",
   "theorems": [
    "Bromine.Props.C58_link_live"
   ],
   "note": "C58_link_live: **C58, one direction of a connection.** The connection is never stuck by itself: in every state it is possible, without help from any other emitter, that all the events emitted so far get read."
  },
  {
   "property": "C59",
   "status": "proved",
   "theorems": [
    "Bromine.Props.C59_written",
    "Bromine.Props.C59_flushed",
    "Bromine.Props.C59_held_back",
    "Bromine.Props.C59_finishes",
    "Bromine.Props.C59_read",
    "Bromine.Props.C59_read_all",
    "Bromine.Props.C59_read_exact",
    "Bromine.Props.C59_stream",
    "Bromine.Props.C59_all",
    "Bromine.Props.C59_violated_read_u32"
   ],
   "note": "C59_violated_read_u32 is the loss with read_u32 that the statement mentions."
  },
  {
   "property": "C60",
   "status": "proved",
   "theorems": [
    "Bromine.Props.C60_session",
    "Bromine.Props.C60_clean"
   ],
   "note": "The session is the link model of C57/C58 started with the stream halves that the exchange produced; C60_clean covers events that are sent before the peer has completed."
  },
  {
   "property": "C61",
   "status": "proved",
   "theorems": [
    "Bromine.Props.C61_await_reply_can_complete",
    "Bromine.Props.C61_stream_can_complete"
   ],
   "note": "Possibility, not fairness: from every such state some continuation of forward steps (SysForward) completes the request."
  },
  {
   "property": "C62",
   "status": "proved",
   "theorems": [
    "Bromine.Props.C62_taken_as_reply",
    "Bromine.Props.C62_nested_request_unanswered"
   ],
   "note": "States what the code does; a user may expect the opposite (handlers cannot usefully await replies from a peer that awaits them)."
  },
  {
   "property": "C63",
   "status": "proved",
   "theorems": [
    "Bromine.Props.C63_failed_stream_never_ends"
   ],
   "note": "States what the code does; a user may expect the stream to end after an Error event."
  },
  {
   "property": "C64",
   "status": "proved",
   "theorems": [
    "Bromine.Props.C64_write_half_iff",
    "Bromine.Props.C64_closed_iff",
    "Bromine.Props.C64_client_loop_ends",
    "Bromine.Props.C64_abandoned_goes_on",
    "Bromine.Props.C64_stop_works",
    "Bromine.Props.C64_server_loop_ends_iff",
    "Bromine.Props.C64_violated_stop"
   ],
   "note": "Exact: C64_write_half_iff, C64_closed_iff, C64_server_loop_ends_iff; C64_violated_stop and C64_abandoned_goes_on are what a user would not expect."
  },
  {
   "property": "C65",
   "status": "proved",
   "theorems": [
    "Bromine.Props.C65_failed_pool",
    "Bromine.Props.C65_same_loop"
   ],
   "note": "States what the code does; a user may expect the earlier connections to be closed. C65_same_loop links the loop to the builder model of C31."
  },
  {
   "property": "C66",
   "status": "proved",
   "theorems": [
    "Bromine.Props.C66_settings",
    "Bromine.Props.C66_setting_local",
    "Bromine.Props.C66_handles",
    "Bromine.Props.C66_handler_context",
    "Bromine.Props.C66_sharing",
    "Bromine.Props.C66_stop_iff",
    "Bromine.Props.C66_connections_differ",
    "Bromine.Props.C66_config",
    "Bromine.Props.C66_server_isolated",
    "Bromine.Props.C66_given",
    "Bromine.Props.C66_same_result"
   ],
   "note": "C66_settings: **C66.** Whatever was called on the builder, and whatever happened since: as long as nobody has assigned to the field `default_reply_timeout` of a context, every context, of the user or of a handler, has the timeout given last to the builder, 60 s if none was given; and likewise for the default serializer, which is the first available format if none was given. C66_setting_local: **C66.** An assignment to a setting of a context changes that setting of that context only; not that of a clone made before. C66_handles: **C66.** The contexts of a process are independent values. A step leaves all of them as they are except the one it makes, changes or ends: `stop` and dropping end that one only, not its clones; a clone is equal to its original and takes no existing context's place. All but accepting are possible with any context there is, accepting exactly on a server. See THEOREMS.md for the others."
  },
  {
   "property": "C67",
   "status": "proved",
   "theorems": [
    "Bromine.Props.C67_shared_data"
   ],
   "note": "C67_shared_data: **C67.** What is read under a key, through any context of the process, is what was written last under that key, by the builder or through any context of the process (also of another connection of a server or of a pool); nothing, if the last write was a removal or there was none."
  },
  {
   "property": "C68",
   "status": "proved",
   "theorems": [
    "Bromine.Props.C68_next",
    "Bromine.Props.C68_others",
    "Bromine.Props.C68_told",
    "Bromine.Props.C68_replies",
    "Bromine.Props.C68_drop",
    "Bromine.Props.C68_taken",
    "Bromine.Props.C68_panics"
   ],
   "note": "C68_next: **C68, what a request does next is possible.** A request is made on a context, and its future is polled, with anything else going on in the process, also between the effects of one poll. Whatever the future does next (insert its listener, write its event, take a reply from the channel, find it closed, run into its timeout, remove its listener) is a step that the endpoint model allows, provided that it is truthful about the channel; the step is that of this request and has just the effect in question. C68_others: **C68, anything else can go on.** Between the polls of the request and between the effects of one poll, whatever else the endpoint can do is possible: events arrive and are dispatched, handlers run, emit, answer and panic, connections come to an end, and other requests are made, sent, answered, time out and are dropped; everything but the steps of this request itself. See THEOREMS.md for the others."
  },
  {
   "property": "C69",
   "status": "proved",
   "theorems": [
    "Bromine.Props.C69_every_event_is_dealt_with",
    "Bromine.Props.C69_every_task_ends",
    "Bromine.Props.C69_every_event_is_served",
    "Bromine.Props.C69_unread_stream_blocks"
   ],
   "note": "C69_every_event_is_dealt_with: **C69: every event that arrives is dealt with.** In a fair execution of an endpoint, with an arbitrary peer, every event that arrives on a connection is dealt with at some time (after those before it, and in its place), unless the receive loop of the connection ends. C69_every_task_ends: **C69: every handler task comes to an end.** In a fair execution every handler task panics, fails to write its answer, or has written exactly one final answer, which is an answer to its event. C69_every_event_is_served: **C69: every event that arrives is served.** In a fair execution of an endpoint, with an arbitrary peer: whatever arrives is at some time delivered to the request it refers to, or ignored as an End event, or has been answered by a handler task - unless the receive loop ends, the callback panics or the answer cannot be written. See THEOREMS.md for the others."
  },
  {
   "property": "C70",
   "status": "proved",
   "theorems": [
    "Bromine.Props.C70_emitted_event_is_served",
    "Bromine.Props.C70_await_reply_completes",
    "Bromine.Props.C70_stream_completes"
   ],
   "note": "C70_emitted_event_is_served: **C70: every emitted event is served by the peer.** In every fair execution, whatever one side has emitted on a linked connection is at some time dealt with by the other side in the place in which it was emitted - delivered to the request it refers to, ignored as an End event, or answered by a handler task - unless the other side stops reading the connection, the callback panics or the answer cannot be written. C70_await_reply_completes: **C70: `await_reply` completes.** In every fair execution of two joined endpoints, an `await_reply` made with the connection's context returns exactly one event, which refers to the request - unless something comes between (see `GivenUp`). C70_stream_completes: **C70: `stream_replies` gets to the answer of the handler.** The same for a stream: it ends with the End event, or yields the Error event of its handler (which does not end it, C63)."
  },
  {
   "property": "C71",
   "status": "proved",
   "theorems": [
    "Bromine.Props.C71_connection_gets_free",
    "Bromine.Props.C71_refines",
    "Bromine.Props.C71_emitted_event_is_served",
    "Bromine.Props.C71_await_reply_completes",
    "Bromine.Props.C71_stream_completes"
   ],
   "note": "C71_connection_gets_free: **C71, connections get free.** In a fair execution whoever holds a connection for writing an event is done at some time: again and again there is a moment at which another emit could get the connection. C71_refines: **C71, refinement.** Fair scheduling of endpoints, writers, transport and receive loops at the level of bytes is fair scheduling of the two endpoints at the level of events. C71_emitted_event_is_served: **C71, events.** Every event written on a linked plain or encrypted connection, whatever the fragmentation of its bytes, is dealt with by the other side in its place, as in C70. C71_await_reply_completes: **C71, `await_reply`.** In every fair execution at the level of bytes, `await_reply` returns one reply to its request, unless something has come between. See THEOREMS.md for the others."
  },
  {
   "property": "C72",
   "status": "proved",
   "theorems": [
    "Bromine.Props.C72_bind_accept",
    "Bromine.Props.C72_connect",
    "Bromine.Props.C72_performs",
    "Bromine.Props.C72_untrusting",
    "Bromine.Props.C72_default_keys",
    "Bromine.Props.C72_default_options",
    "Bromine.Props.C72_errors",
    "Bromine.Props.C72_builder",
    "Bromine.Props.C72_pool"
   ],
   "note": "C72_bind_accept: binding: whatever the encrypted layers, one `bind` to the given address, and then (TCP with a TTL) one `set_ttl` with that value. The result is `Ok` iff both succeed; otherwise it is what the first one that failed returned. And a listener that was bound accepts with one `accept` and one key exchange per layer, from the innermost layer outwards, each over the connection of the layers below and with the keys that were given for it when binding. The TTL is not set on accepted connections. The stream is a TCP or unix stream, as the listener, in one encrypted stream per layer. C72_connect: connecting: one `connect` to the given address, then `set_ttl` (TCP with a TTL) or `ready` (unix), then one key exchange per layer, from the innermost outwards. See THEOREMS.md for the others."
  },
  {
   "property": "C73",
   "status": "proved",
   "theorems": [
    "Bromine.Props.C73_collide_iff",
    "Bromine.Props.C73_distinct_iff",
    "Bromine.Props.C73_same_process",
    "Bromine.Props.C73_violated"
   ],
   "note": "Exact: C73_collide_iff, C73_distinct_iff; C73_violated shows the request that fails, which the statement mentions."
  },
  {
   "property": "C74",
   "status": "proved",
   "theorems": [
    "Bromine.Props.C74_served",
    "Bromine.Props.C74_plain",
    "Bromine.Props.C74_stuck_only",
    "Bromine.Props.C74_encrypted",
    "Bromine.Props.C74_exchange"
   ],
   "note": "C74_served: **C74, servers.** In every fair execution of a server, plain or encrypted: everyone who connects is served, in the order of connecting, unless the server ends (see C35 for when), or stays for ever in the key exchange with one client. C74_plain: **C74, plain servers** never get stuck: everyone who connects is served, unless `accept` fails. C74_stuck_only: **C74, why an encrypted server is stuck.** If a server that is scheduled fairly stays for ever in the key exchange with a client, then this client never sends the 32 bytes of a key and never closes the connection, or from some point on the transport takes nothing of what the server writes (the client does not read). So a client that closes the connection too early, or sends its key and reads what it is sent, does not block the server. See THEOREMS.md for the others."
  },
  {
   "property": "C75",
   "status": "proved",
   "theorems": [
    "Bromine.Props.C75_written",
    "Bromine.Props.C75_read",
    "Bromine.Props.C75_violated_lost",
    "Bromine.Props.C75_finishes"
   ],
   "note": "C75_violated_lost: a run in which a write and a flush return Ok after an error, and the peer cannot read the data."
  },
  {
   "property": "C76",
   "status": "proved",
   "theorems": [
    "Bromine.Props.C76_server",
    "Bromine.Props.C76_client",
    "Bromine.Props.C76_server_waits",
    "Bromine.Props.C76_client_waits",
    "Bromine.Props.C76_violated_short"
   ],
   "note": "C76_violated_short: a client whose server sends a session key that is too short and closes waits for ever."
  },
  {
   "property": "C77",
   "status": "proved",
   "theorems": [
    "Bromine.Props.C77_wire",
    "Bromine.Props.C77_peer_reads",
    "Bromine.Props.C77_faithful",
    "Bromine.Props.C77_live",
    "Bromine.Props.C77_poll",
    "Bromine.Props.C77_poll_wire",
    "Bromine.Props.C77_nonces",
    "Bromine.Props.C77_one_layer_write",
    "Bromine.Props.C77_one_layer_read",
    "Bromine.Props.C77_one_layer_source",
    "Bromine.Props.C77_one_layer_new"
   ],
   "note": "C77_wire: **C77, the wire.** Any number of encrypted layers in each other: whatever the transport answers (partial writes, pending polls), what has gone to the socket is a prefix of the events in the order in which their emits got the connection, each in one package of the outermost layer, which is in one package of the next, and so on, numbered by each layer from its own start. When no emit holds the connection, it is all of it: nothing is left in the buffer of any layer. C77_peer_reads: **C77, the peer.** A peer with the same layers, to which a prefix of such a sequence has come, however the socket cuts it: it reads exactly the events whose packages are complete, in order, and then waits, or sees the end of the stream if the socket is closed. C77_faithful: **C77, end to end.** What is read from a connection with nested layers is what was emitted, in order. See THEOREMS.md for the others."
  },
  {
   "property": "C78",
   "status": "proved",
   "theorems": [
    "Bromine.Props.C78_end_to_end",
    "Bromine.Props.C78_final_result",
    "Bromine.Props.C78_no_ping_pong",
    "Bromine.Props.C78_error_exchange_ends",
    "Bromine.Props.C78_reply_not_first",
    "Bromine.Props.C78_loses_at_most",
    "Bromine.Props.C78_refines",
    "Bromine.Props.C78_end_to_end_bytes",
    "Bromine.Props.C78_final_result_bytes",
    "Bromine.Props.C78_lost_forever",
    "Bromine.Props.C78_lost_request",
    "Bromine.Props.C78_lost_answer",
    "Bromine.Props.C78_lost_request_bytes",
    "Bromine.Props.C78_lost_answer_bytes"
   ],
   "note": "C78_end_to_end: **C78.** Also over connections that lose events: everything a request has received was emitted by the one handler task of the other side that handled the event of this very request, in the order in which that task emitted it, none of it twice; and of what arrived from that task the request has missed nothing up to what it received last. C78_final_result: **C78: the End or Error event that a request receives is the answer made from the result of its handler.** C78_no_ping_pong: **C78, C29.** Between two endpoints with different ids, over connections that lose events, an End event is only ever handled (rather than received by a request, or dropped) if the event it answers is an Initiator or a Response. So an answer to an End or Error event is never answered again. See THEOREMS.md for the others."
  },
  {
   "property": "C79",
   "status": "proved",
   "theorems": [
    "Bromine.Props.C79_not_early",
    "Bromine.Props.C79_not_late",
    "Bromine.Props.C79_times_out",
    "Bromine.Props.C79_stream_not_early",
    "Bromine.Props.C79_stream_not_late",
    "Bromine.Props.C79_stream_times_out"
   ],
   "note": "C79_not_early: **C79, `await_reply` does not time out early.** If a poll of an `await_reply` says `Timeout`, then the event has been written completely, in this or an earlier poll, and since that poll at least the timeout has passed: that given to `with_timeout`, else the default one of the context. In particular, however long it takes to write the event, this does not count, and the request does not time out meanwhile. C79_not_late: **C79, `await_reply` does not time out late.** If a poll of an `await_reply` is pending, although timers that are due are noticed, then the event is not yet written completely, or the timeout has not yet passed since the poll in which it was. See THEOREMS.md for the others."
  },
  {
   "property": "C80",
   "status": "proved",
   "theorems": [
    "Bromine.Props.C80_one_layer_server",
    "Bromine.Props.C80_one_layer_client",
    "Bromine.Props.C80_wire",
    "Bromine.Props.C80_client_done",
    "Bromine.Props.C80_server_done",
    "Bromine.Props.C80_client_outcome",
    "Bromine.Props.C80_server_outcome",
    "Bromine.Props.C80_client_refuses",
    "Bromine.Props.C80_server_refuses",
    "Bromine.Props.C80_client_completes",
    "Bromine.Props.C80_client_reports",
    "Bromine.Props.C80_server_completes",
    "Bromine.Props.C80_server_reports",
    "Bromine.Props.C80_client_ends",
    "Bromine.Props.C80_server_ends",
    "Bromine.Props.C80_write_sessions",
    "Bromine.Props.C80_read_sessions",
    "Bromine.Props.C80_client_nonces",
    "Bromine.Props.C80_server_nonces"
   ],
   "note": "C80_one_layer_server: **C80, one layer, server.** Whatever the socket answers, and however often the future of one layer is polled: there is a history of the key exchange of Model/Handshake.lean, in which the same bytes arrive and the polls get the same answers, that leads to the same outcome, with the same bytes sent. C80_one_layer_client: **C80, one layer, client.** C80_wire: **C80, the wire.** Client and server set up any number of encrypted layers in each other. Whatever the sockets answer, and however often and in which order the two are polled: what the client has sent is a prefix of its public keys, one for each layer from the innermost, each through all layers inside; and what the server has sent is a prefix of, for each layer, its public key and then the key it made, in a package with the secret that both compute. A side that is done has sent all of it. See THEOREMS.md for the others."
  },
  {
   "property": "C81",
   "status": "proved",
   "theorems": [
    "Bromine.Props.C81_client_outcome",
    "Bromine.Props.C81_server_outcome",
    "Bromine.Props.C81_client_sends",
    "Bromine.Props.C81_server_sends",
    "Bromine.Props.C81_client_done",
    "Bromine.Props.C81_server_done",
    "Bromine.Props.C81_client_trusts",
    "Bromine.Props.C81_server_trusts"
   ],
   "note": "C81_client_outcome: **C81, the client's outcome.** Whatever arrives, whatever the socket answers and however often it is polled, a client that sets up any number of encrypted layers in each other does not panic. It fails only with an error of a write to the socket, with `WriteZero` if the socket takes nothing, with `UnexpectedEof` if the connection is closed, with `InvalidData` if in some layer a package has arrived that does not decipher, or with `UnknownPeer` and a key that has arrived in some layer and is not trusted there. C81_server_outcome: the server's outcome: the same; a package that does not decipher can only arrive in a layer that is set up already. See THEOREMS.md for the others."
  },
  {
   "property": "C82",
   "status": "proved",
   "theorems": [
    "Bromine.Props.C82_emitted",
    "Bromine.Props.C82_released",
    "Bromine.Props.C82_finishes",
    "Bromine.Props.C82_read",
    "Bromine.Props.C82_to_server",
    "Bromine.Props.C82_to_client"
   ],
   "note": "C82_emitted: **C82, what is emitted.** Whatever the write halves have carried before (see C80 and C81 for what a set-up leaves): events that are emitted over them go to the wire, in the order in which their emits got the connection, after what is there already, each in one package of each layer, with the numbers that the layers are at. Whatever the socket answers, what is on the wire is a prefix of that, and all of it if no emit is under way or has failed. No emit panics, and one fails only with an error of the socket, or with `WriteZero` if it takes nothing. C82_released: a failed emit lets go of the connection: nothing is under way after it. See THEOREMS.md for the others."
  },
  {
   "property": "C83",
   "status": "proved",
   "theorems": [
    "Bromine.Props.C83_fair_served",
    "Bromine.Props.C83_stuck_only",
    "Bromine.Props.C83_fair",
    "Bromine.Props.C83_served_in_order",
    "Bromine.Props.C83_served",
    "Bromine.Props.C83_keys",
    "Bromine.Props.C83_ends_only",
    "Bromine.Props.C83_ended",
    "Bromine.Props.C83_serves",
    "Bromine.Props.C83_stranger_ends",
    "Bromine.Props.C83_serves_all",
    "Bromine.Props.C83_blocked",
    "Bromine.Props.C83_one_layer",
    "Bromine.Props.C83_no_layer"
   ],
   "note": "C83_fair_served: **C83, fair scheduling.** In every fair execution of a server with encrypted layers: everyone who connects is served, in the order of connecting, unless the server ends (`C83_ends_only`), or stays for ever in the set-up with one client. C83_stuck_only: **C83, why it is stuck.** The server stays for ever in the set-up with a client that sends all of its part only if, from some time on, the socket of this client does not take anything. C83_fair: **C83, all are served in the end.** In every fair execution in which binding and `accept` do not fail, no socket fails, every client that connects sends all of its part and is trusted in every layer, and the sockets of clients take something again and again: everyone who connects is served, in the order of connecting. See THEOREMS.md for the others."
  },
  {
   "property": "C84",
   "status": "proved",
   "theorems": [
    "Bromine.Props.C84_server_prefix",
    "Bromine.Props.C84_client_prefix",
    "Bromine.Props.C84_server_positions",
    "Bromine.Props.C84_client_positions"
   ],
   "note": "C84_server_prefix: **C84, to the server.** A server has set up any number of encrypted layers in each other, and the bytes that it has received and will receive are chosen by somebody else, from the first on: he may hold the keys of all layers but the outermost. He only cannot make packages of the outermost session: of what that layer can have read, only the sender's events decipher, each with its own number. Then the server delivers the sender's events from the first on, in order, without repetition or gap, up to some point; there it ends with an error, or waits. C84_client_prefix: **C84, to the client.** The same for a client. Here the packages under the secret that was agreed are needed too: of what the outermost layer can have read, only the package with the key that the server made deciphers under it. See THEOREMS.md for the others."
  },
  {
   "property": "C85",
   "status": "proved",
   "theorems": [
    "Bromine.Props.C85_who",
    "Bromine.Props.C85_exclusive",
    "Bromine.Props.C85_undisturbed",
    "Bromine.Props.C85_reads",
    "Bromine.Props.C85_guarded",
    "Bromine.Props.C85_second_guard",
    "Bromine.Props.C85_fair"
   ],
   "note": "C85_who: **C85, who has a guard.** Whatever the tasks do: of the requests that were made and not dropped, those have a guard whose turn it is (the first; and if it reads, those after it up to the first that wants to write), and the others wait. C85_exclusive: **C85, exclusion.** If there is a guard for writing, there is no other guard. C85_undisturbed: **C85, undisturbed.** As long as a guard exists, data is written through this guard only, and if it is for reading, not at all. C85_reads: **C85, reads.** What is read under a key is what was written last under it, by whichever guard. C85_guarded: **C85, with a guard only.** Data is read through a guard whose turn it is, and written through such a guard for writing. See THEOREMS.md for the others."
  },
  {
   "property": "C86",
   "status": "proved",
   "theorems": [
    "Bromine.Props.C86_wire",
    "Bromine.Props.C86_peer_reads",
    "Bromine.Props.C86_loses_at_most",
    "Bromine.Props.C86_poll",
    "Bromine.Props.C86_bytes",
    "Bromine.Props.C86_finishes",
    "Bromine.Props.C86_released",
    "Bromine.Props.C86_nonces"
   ],
   "note": "C86_wire: **C86, the wire.** Any number of encrypted layers in each other, and any emits are dropped at any point (or panic because of an earlier drop). The wire is never torn: what is on it is a prefix of a sequence of packages in packages, each carrying the whole frames of one or more of the emitted events, in the order in which their emits got the connection, no event twice; numbered by each layer from its own start. The rest of it is in the write halves, and what is in the buffer of the outermost layer is whole frames, too, of events after these. See THEOREMS.md for the others."
  },
  {
   "property": "C87",
   "status": "proved",
   "theorems": [
    "Bromine.Props.C87_kept",
    "Bromine.Props.C87_wire",
    "Bromine.Props.C87_account",
    "Bromine.Props.C87_panics",
    "Bromine.Props.C87_reads",
    "Bromine.Props.C87_final",
    "Bromine.Props.C87_undisturbed",
    "Bromine.Props.C87_violated_stuck"
   ],
   "note": "C87_violated_stuck: what a user would not expect, as the statement says."
  },
  {
   "property": "C88",
   "status": "proved",
   "theorems": [
    "Bromine.Props.C88_order",
    "Bromine.Props.C88_wire",
    "Bromine.Props.C88_poll",
    "Bromine.Props.C88_nonces",
    "Bromine.Props.C88_before",
    "Bromine.Props.C88_read",
    "Bromine.Props.C88_violated_after"
   ],
   "note": "C88_violated_after: later emits return Ok and are never read, as the statement says. Unforgeability is a hypothesis about the bytes on the wire, met by an example."
  },
  {
   "property": "C89",
   "status": "proved",
   "theorems": [
    "Bromine.Props.C89_kept",
    "Bromine.Props.C89_wire",
    "Bromine.Props.C89_account",
    "Bromine.Props.C89_poll",
    "Bromine.Props.C89_final",
    "Bromine.Props.C89_nonces",
    "Bromine.Props.C89_read",
    "Bromine.Props.C89_bytes",
    "Bromine.Props.C89_finishes",
    "Bromine.Props.C89_before",
    "Bromine.Props.C89_violated_after",
    "Bromine.Props.C89_violated_error_sent",
    "Bromine.Props.C89_without_drops",
    "Bromine.Props.C89_without_errors"
   ],
   "note": "C89_violated_after and C89_violated_error_sent: what the statement says a user would not expect. Unforgeability is a hypothesis about the bytes on the wire, met by an example."
  },
  {
   "property": "C90",
   "status": "proved",
   "theorems": [
    "Bromine.Props.C90_read",
    "Bromine.Props.C90_after",
    "Bromine.Props.C90_plain",
    "Bromine.Props.C90_peer_reads",
    "Bromine.Props.C90_violated_again"
   ],
   "note": "C90_read for all bytes, C90_plain and C90_peer_reads for what a peer sent, C90_after for what comes later; C90_violated_again is the panic that the statement mentions."
  },
  {
   "property": "C91",
   "status": "proved",
   "theorems": [
    "Bromine.Props.C91_client",
    "Bromine.Props.C91_server",
    "Bromine.Props.C91_client_outcome",
    "Bromine.Props.C91_server_outcome",
    "Bromine.Props.C91_client_completes",
    "Bromine.Props.C91_server_completes",
    "Bromine.Props.C91_client_reports",
    "Bromine.Props.C91_server_reports",
    "Bromine.Props.C91_client_trusts",
    "Bromine.Props.C91_server_trusts"
   ],
   "note": "C91_client: **C91, an error is as an end, the client.** Any number of layers, any peer, and whatever arrives: a client whose transport fails has sent what it would have sent over one that is closed there, or silent. After each poll, it is where these would be: pending, or done, with the same half to write, and reading alike; or failed with the same error. Only where the one over the silent transport waits for more, and so the one over the closed transport has failed with `UnexpectedEof`, it has failed with the error of the transport. C91_server: **C91, an error is as an end, the server.** See THEOREMS.md for the others."
  },
  {
   "property": "C92",
   "status": "proved",
   "theorems": [
    "Bromine.Props.C92_polls",
    "Bromine.Props.C92_completes",
    "Bromine.Props.C92_plain_await",
    "Bromine.Props.C92_violated_await",
    "Bromine.Props.C92_violated_after",
    "Bromine.Props.C92_one_layer"
   ],
   "note": "C92_polls (all polls against the specification), C92_completes, C92_one_layer; C92_violated_await and C92_violated_after are the parts of the statement that the code violates."
  },
  {
   "property": "C93",
   "status": "proved",
   "theorems": [
    "Bromine.Props.C93_server",
    "Bromine.Props.C93_server_setup",
    "Bromine.Props.C93_server_failing",
    "Bromine.Props.C93_client",
    "Bromine.Props.C93_client_setup",
    "Bromine.Props.C93_client_failing",
    "Bromine.Props.C93_server_distinct",
    "Bromine.Props.C93_client_distinct",
    "Bromine.Props.C93_directions",
    "Bromine.Props.C93_sessions"
   ],
   "note": "C93_server, C93_client (with _setup and _failing); C93_server_distinct, C93_client_distinct; C93_directions and C93_sessions say exactly where pairs of key and nonce are used twice, which a user would not expect."
  },
  {
   "property": "C94",
   "status": "proved",
   "theorems": [
    "Bromine.Props.C94_writes_woken",
    "Bromine.Props.C94_emits_woken",
    "Bromine.Props.C94_read_woken_iff",
    "Bromine.Props.C94_reads",
    "Bromine.Props.C94_violated",
    "Bromine.Props.C94_violated_torn"
   ],
   "note": "C94_writes_woken, C94_emits_woken, C94_read_woken_iff for all states; C94_reads exactly; C94_violated and C94_violated_torn are the reads that never return, which the statement mentions."
  },
  {
   "property": "C95",
   "status": "proved",
   "theorems": [
    "Bromine.Props.C95_starts_at_once",
    "Bromine.Props.C95_can_always_return",
    "Bromine.Props.C95_any_number_in_any_order"
   ],
   "note": "C95_starts_at_once: **C95: a handler is started at once.** Whatever the other handlers are doing, however many there are: the receive loop, when it reads, takes the next event, and if that is not a reply to a request that is still listened for and not an End event, its handler is started in the same step; no other handler is affected, and the receive loop goes on reading. C95_can_always_return: **C95: a handler does not wait for anything else.** In every state - whatever the other handlers, the requests and the receive loops are doing, also when the receive loop of its connection is blocked, has ended or was stopped - a running handler of the user can return any result, and then its answer can be written; no other handler and no other connection is affected by that. See THEOREMS.md for the others."
  },
  {
   "property": "C96",
   "status": "proved",
   "theorems": [
    "Bromine.Props.C96_in_order",
    "Bromine.Props.C96_once",
    "Bromine.Props.C96_callback",
    "Bromine.Props.C96_emitted",
    "Bromine.Props.C96_no_order_between_connections",
    "Bromine.Props.C96_over_bytes",
    "Bromine.Props.C96_eventually",
    "Bromine.Props.C96_lossy",
    "Bromine.Props.C96_dropped_over_bytes"
   ],
   "note": "C96_in_order: **C96: exactly once, in order.** Two endpoints joined by any number of connections, whatever they do: of the events emitted by one side on a connection that refer to no other event (and are not End events), those for which the other side has started handlers are the first ones; for each of them one handler was started, in the order in which the events were emitted, with none left out. C96_once: **C96: each handler is started once.** C96_callback: **C96: the callback.** The handler started for an unprompted event runs the callback that is registered for its name (in its namespace if that is registered, otherwise globally). C96_emitted: **C96: what `emit` sends.** An event emitted on the context of a connection is unprompted; and only events emitted by handlers with their context, and final answers, are not. See THEOREMS.md for the others."
  },
  {
   "property": "C97",
   "status": "proved",
   "theorems": [
    "Bromine.Props.C97_refines",
    "Bromine.Props.C97_write_gets_through",
    "Bromine.Props.C97_stuck",
    "Bromine.Props.C97_violated",
    "Bromine.Props.C97_await_reply_can_complete",
    "Bromine.Props.C97_stream_can_complete"
   ],
   "note": "C97_refines, C97_write_gets_through, C97_await_reply_can_complete and C97_stream_can_complete for all states and capacities; C97_stuck and C97_violated are the mutual waiting that the statement mentions."
  },
  {
   "property": "C98",
   "status": "proved",
   "theorems": [
    "Bromine.Props.C98_room_again_and_again",
    "Bromine.Props.C98_fair",
    "Bromine.Props.C98_emitted_is_dealt_with",
    "Bromine.Props.C98_await_reply_completes",
    "Bromine.Props.C98_stream_completes",
    "Bromine.Props.C98_every_task_ends"
   ],
   "note": "C98_room_again_and_again: **C98: there is room again and again.** In every fair execution of two endpoints joined by connections of limited capacity, in which the second side keeps reading connection `c`: at any time there is a later time at which the first side can write on `c` whatever it could write if there were no limit. C98_fair: **C98: fair executions with limited capacity are fair.** If all connections are read on both sides, then an execution with limited capacity, in which nobody who can write is passed over for ever and all replies are read, is a fair execution of two endpoints whose connections have no limit: what such executions do (C69, C70), it does. See THEOREMS.md for the others."
  }
 ]
}