# Formal model of Trivernis/bromine in Lean 4

## Trusted base

* Lean's kernel (4.33.0) and the statement-level elaboration of the files in `lean/Verif`.
* Axioms: every theorem depends at most on `propext`, `Classical.choice` and `Quot.sound` (checked with `collectAxioms` over all theorems of the
  library). No axioms are added, no proof rests on compiled code.
* The correspondence between the Rust text and the definitions in `lean/Verif/Model`, which cite file and lines; nothing checks it mechanically.
* Assumptions about external code (they are parameters or structure fields, never axioms; each structure is instantiated once, by `toyAead`, `toyDH`,
  `natCodec` and similar, so that no theorem is about an empty class):
  - `Aead` (crate chacha20poly1305): `decrypt` is the exact inverse of `encrypt`, a ciphertext is 16 bytes longer than its text, encryption is defined on every
    text of up to 2^38 - 64 bytes (the limit of ChaCha20). These are laws of the functions, not cryptographic assumptions. Where secrecy or unforgeability matters
    (C43, C54, C55) it is a visible hypothesis of the theorem ("the attacker has no other valid package").
  - `DH` (crate x25519_dalek): the shared secret is the same computed from either side, public keys and shared secrets
    have 32 bytes, equality of public keys is an equivalence that compares points (so two encodings of one point are equal and lead to the same secret).
  - serde formats: a `Codec` with `dec (enc x) = x` per format.
  - transports (`tokio::net`): bytes accepted by `poll_write` arrive in order, in pieces of any size, after any waits, possibly never; errors are arbitrary.
  - tokio: `mpsc` channels are bounded FIFO queues, `oneshot` is a slot, `Mutex` is a lock that any waiter may get next, `RwLock` serves requests in order (it is documented as fair), `spawn` runs a task in any
    interleaving, `select!` picks any ready branch, timers fire at any time at or after their deadline. Scheduling is arbitrary: no fairness is
    assumed except in C69, C70, C71, C74, C83 and C85, where it is a visible hypothesis; the "can always complete" theorems (C58, C61) state possibility.
  - `DashMap`, `AtomicUsize`, `Arc`: every access is one atomic step.
  - `usize` has 64 bits. Allocation never fails except above `isize::MAX` bytes (then it panics).

## What is modelled

| /repo | model | not modelled |
|---|---|---|
| `src/events/event.rs` | `Model/Event.lean`: all constructors, `into_bytes`, `from_async_read`, header codec, accessors, over any source (byte strings, poll scripts, encrypted streams) | `tracing` output |
| `src/events/mod.rs` | `Model/EventId.lean`: `generate_event_id`, any clock, any threads | |
| `src/events/payload.rs`, `error_event.rs`, `payload_serializer/*` | `Model/Payload.lean`: all `IntoPayload` / `FromPayload` impls, `TandemPayload`, `DynamicSerializer` with the set of features as parameter | the formats of the serde crates (parameters) |
| `src/events/event_handler.rs`, `src/namespaces/*`, `src/macros.rs`, `src/ipc/builder.rs` | `Model/Builder.lean` | `NamespaceProvider` generics beyond registration order |
| `src/ipc/stream_emitter/*` | `Model/Emit.lean` (futures poll by poll), `Model/Timed.lean` (with a clock), `Model/Wire.lean` (connection lock, partial writes) | |
| `src/ipc/mod.rs`, `src/ipc/context.rs` (requests, replies, stop) | `Model/Endpoint.lean`; `Model/Refine.lean` joins it with the futures | |
| `src/ipc/context.rs` (pools) | `Model/Pool.lean` | |
| `src/ipc/client.rs`, `src/ipc/server.rs`, `src/protocol/{tcp,unix_socket}.rs`, `protocol_impl.rs` | `Model/Builder.lean` (client), `Model/Server.lean`, `Model/LayerServer.lean` (listener with encrypted layers), `Model/Protocol.lean` | what the operating system does with addresses and options |
| reference counts of the write half and of the stop sender, abort of the receive loop (`context.rs`, `client.rs:42-79`) | `Model/Life.lean` | |
| settings and `Arc`s of contexts (`builder.rs`, `client.rs`, `server.rs`, `context.rs:35-75`), shared data | `Model/Assembly.lean` (each access one step), `Model/DataLock.lean` (guards held across awaits) | the limit of 2^29 simultaneous readers |
| `src/protocol/encrypted/*` | `Model/Crypt.lean` (cipher box, packages), `CryptIO.lean` (read and write half poll by poll), `CryptWire.lean` (concurrent emitters), `CryptBytes.lean` (arbitrary callers), `Handshake.lean` (key exchange poll by poll), `Layers.lean` (encryption over any transport, nested), `LayerExchange.lean` (key exchange over any transport, nested), `LayerSession.lean` (emits after it) | memory zeroing of key material |
| two processes | `System.lean` (events arrive whole), `Link.lean`, `LayerLink.lean` (one direction down to bytes: plain, encrypted, or encrypted in any number of layers), `DropLink.lean`, `LayerDrop.lean` (encrypted, in any number of layers, with dropped emits), `LayerFail.lean` (the same with failing emits, sending side), `LayerAny.lean` (with both), `ReadFail.lean` (reading side, over a socket that returns errors), `LayerShutdown.lean` (`poll_shutdown`), `SetupFail.lean` (the set-up, over such a socket), `Stack.lean` (two endpoints over links), `Lossy.lean` (two endpoints, events get lost), `Bounded.lean` (two endpoints, connections of limited capacity) | |

Granularity, and why it is sound, is stated in the header of each model file. The links of `Link.lean` exclude emits that fail or are dropped while they hold the
connection lock (their effect is C19, C45); `DropLink.lean` and `LayerDrop.lean` include the dropped ones on encrypted connections, `LayerFail.lean` the failing ones, `LayerAny.lean` both. Deadlocks of the Rust runtime itself, memory exhaustion and process crashes other than panics are not modelled; a
crash of a peer is a transport that stops at any byte (C03, C58 hypotheses).

## Layout

* `lean/Verif/Model/*`  — total, computable definitions, each citing file and lines of `/repo`.
* `lean/Verif/Spec/*`   — small specifications written without the model's helpers.
* `lean/Verif/Lemmas/*` — helper lemmas and invariants.
* `lean/Verif/Props/*`  — the property theorems (`Cnn_*`), each with a concrete case beside it.
* `seeded/LOG.jsonl`    — wrong programs tried, and what rejected them (`tools/mutate.py`, `tools/seedlog.py`).
* `tools/manifest.py`   — writes `MANIFEST.json` from the theorem names.
* `THEOREMS.md`          — each property with what its theorems say, written by `tools/index.py` from the comments in `Props`.

## Modelling decisions

* Bytes are `List UInt8`; `u16/u32/u64` are Lean's `UInt16/32/64` (so casts `as u16` are modular);
  Rust `String` is Lean `String`, which in Lean 4.33 *is* a byte array with a proof of UTF-8 validity.
* A Rust panic is an explicit value (`Outcome.panic`). Overflow checks (debug or release) are a parameter where they matter.
* A blocking/async reader is either a byte string (everything that will ever arrive, then EOF) or a list of
  poll answers (chunks and `pending`), and it is proved that the second always agrees with the first.
* Concurrency: state machines `step : State → Op → Option State`; one `Op` is one atomic action of one task
  (a poll segment between awaits), the op list is the schedule; theorems quantify over all op lists.

## Properties

| Property | Modelled | Proof |
|---|---|---|
| C01–C08 | `Event`, header codec, `from_async_read` over byte strings and over poll scripts | algebraic round-trip, exact iff characterisations, prefix arguments; chunking by induction on the script |
| C09–C11, C49 | `ErrorEventData`, `TandemPayload`, `BytePayload` | round-trip with codecs as parameters; exact panic condition |
| C12, C13 | `DynamicSerializer` with feature set as parameter | case analysis over the feature set, formats abstract |
| C14 | `generate_event_id` as 64 bit arithmetic over an arbitrary clock, counter history | bit-level lemma + induction on history; witness for collision beyond 2^32 |
| C15, C16 | constructors, `Context::emit*`, `EventMetadata` | direct, over all arguments; negation for `Event::end` |
| C17, C48, C50 | poll state machines of the three emit futures and `ResponseStream` | invariant over poll sequences |
| C18, C19 | connection lock + `write_all` + `flush` with partial writes, any number of tasks | invariant on wire history; witness for drop |
| C20–C29, C51, C62, C63 | endpoint state machine: reply listeners, bounded channels, receive loops, handler tasks | invariants over all schedules, routing log; witnesses for violated parts |
| C30, C31 | `EventHandler`, `Namespace`, builders | induction on registration sequence |
| C32, C33 | pool guards and counters | counting invariant; balance invariant |
| C34 | stop sender and abort | invariant |
| C64, C65 | shared ownership of a connection: reference counts, receive loop, abort task; the loop of `build_pooled_client` | counting invariant over all sequences of steps; induction on the pool size |
| C66, C67 | what the build functions put together: identities of shared objects, settings, shared data; linked to the parameters of the endpoint model | invariant over all sequences of steps; history of writes |
| C68 | the poll-level futures of `Model/Emit.lean` run against the state of `Model/Endpoint.lean` (`Model/Refine.lean`) | refinement: phase of the request = stage of the future up to the acts of the current poll still to be done; every act enabled, with its effect |
| C69, C70 | infinite executions of one and of two endpoints, weak and strong fairness per class of steps (`Spec/Fair.lean`); fairness itself (tokio, the user's handlers and readers) is assumed | leads-to arguments by contradiction, induction on positions in FIFO queues; a concrete fair execution as witness |
| C71 | infinite executions of two endpoints joined by plain, encrypted and multiply encrypted byte connections (`Model/Stack.lean`), fairness of tasks, writers, transport and receive loops (`Spec/FairStack.lean`) | every link gets free and delivers (`Lemmas/FairLink.lean`, a measure on bytes written), hence a fair byte level execution projects to a fair execution of C70 (`Lemmas/FairStack.lean`) |
| C72 | `protocol_bind/accept/connect` of the three protocols, any nesting, calls with arbitrary history-dependent outcomes (`Model/Protocol.lean`) | induction on the nesting; `Spec.Performs` is the specification of a sequence of calls; outcomes of key exchanges tied to `Model/Handshake.lean` by `Spec.RealExchanges` |
| C73 | the ids of C14 with the clock reading each was made from; two processes joined as in C46 | arithmetic of the id's bit fields, iff; reachable execution of two endpoints with colliding ids |
| C74 | infinite executions of a server and of two sides of a key exchange, with fairness (`Spec/FairServer.lean`) | measures: served clients, bytes of the exchange sent and read; a stuck server as witness |
| C75 | the write half with a caller that goes on after errors (`Caller` in `Model/CryptBytes.lean`), the read half | invariant on (package, bytes written) pairs; reader invariant under a visible unforgeability hypothesis; a measure for the returning of calls (`Lemmas/CryptErrProgress.lean`) |
| C76 | the sides of the key exchange (`Model/Handshake.lean`) with an arbitrary peer | invariant of the bytes heard (key, packages, rest) for every phase; case analysis of the last poll |
| C77 | the encrypted halves over an arbitrary transport (`Model/Layers.lean`), stacked to any depth over a socket; the link of C57 with such layers (`Model/LayerLink.lean`) | contracts `Sends` and `Receives` of a transport, proved of the socket and preserved by a layer; induction on the layers |
| C78 | two endpoints of which each takes any of its steps, as long as what arrived on a linked connection is a subsequence of what the other emitted there (`Model/Lossy.lean`; the guarantee of C45; `Model/System.lean` is the special case without loss); the stack of C57 over encrypted links with dropped emits (`Model/DropLink.lean`, `Model/LayerDrop.lean`) refines it | induction over the steps; the invariants of the single endpoints with the subsequence instead of the prefix of C46; what is lost stays lost since ids differ and both sequences only grow (`Lemmas/LossyLater.lean`) |
| C79 | the request futures with a clock: the time when the `Sleep` of the current `select!` was made, polls at arbitrary times (`Model/Timed.lean`) | case analysis of one poll, invariant over sequences of polls relating that time to the history |
| C80 | the key exchange over any transport, and connecting and accepting with any number of layers, poll by poll (`Model/LayerExchange.lean`) | the contracts of C77 with an offset; an invariant for each side and layer, composed along the layers (`Goes.andThen`); the two sides together by induction on the layer: the input of one is as expected up to a layer if that of the other is; one layer over a socket refines the exchange of `Model/Handshake.lean`, by a simulation over the polls (`Lemmas/ExchangeOne.lean`) |
| C81 | the same model, one side alone, with arbitrary input | a read contract that says what has been handed out and how it was deciphered (`Robust`), kept by every layer; the write contract of C77; an invariant for each side and layer, composed along the layers (`Safely.andThen`). Between two layers the bytes read are a subsequence of those deciphered (`read_u32` can forget some) |
| C82 | the set-up of C80, then the emits of a side, one after the other (`Model/LayerSession.lean`), and the receive loop of the other side over the halves that the set-up has left | the write contract of C77 from the state C80 leaves, an invariant over the emits; the reader by C77_peer_reads; both joined by the uniqueness of what a set-up sends |
| C83 | the accept loop of `IPCServer::start` with the set-up of C80, C81 for each client (`Model/LayerServer.lean`); a client is what its socket gives | an invariant over the steps that ties the state to the set-ups of C80 and C81, which say how they can end; under fair scheduling a measure of the state that grows with every accept and every client served; one layer refines the encrypted server of `Model/Server.lean`, step by step (`Lemmas/ServerOne.lean`), and no layer is the plain server, in both directions (`Lemmas/ServerPlain.lean`) |
| C84 | the receive loop of C82 behind a set-up of C81 with any peer; what the outermost layer can have read (`Spec/LayerAttack.lean`); that packages cannot be forged is a hypothesis, about these bytes | the invariant of C81 says what has been deciphered; with the hypothesis these are frames of sent events, so `read_u64` never finds a part of a frame, and the rest of each event is there when its first bytes are |
| C85 | the guards of `Context::data` and the queue of tokio's lock | the requests that are not dropped, in order, determine who has a guard (invariant); the number of requests ahead decreases |
| C86 | the link of C77 whose emits can be dropped while they hold the connection (`Model/LayerDrop.lean`) | the packages begun so far, the frames in the outermost buffer and the position of the inner layers in the last package are an invariant of polls and drops (`Lemmas/LayerDrop.lean`, over the contract `Sends` of the inner layers); the reader by the contract `Receives` |
| C87 | the link of C86 with a ledger kept beside it (`Spec/Ledger.lean`): events not yet polled, sent by package, waiting, lost, and what is unfinished | the ledger agrees with the packages, buffer and position of C86's invariant (`Lemmas/Ledger.lean`); the ledger's own rules only see events, drops and the answers of the polls, not the state of the layers |
| C88 | the sending side of the layers of C73 with a socket that may answer errors (`Model/LayerFail.lean`), and the receiving side of C73 | what a failed call leaves behind, by induction on the layers (`Recovers`): every layer is idle again, with its next number; the invariant of all emits so far (`FInv`); a reader at any depth whose innermost layer cannot decipher gives an error or waits (`Silences`) |
| C89 | the sending side of the layers of C73, with drops and errors (`Model/LayerAny.lean`); without drops it is that of C88, without errors that of C86 (proved) | the invariant of C87 (`AInv`), where each package on the wire can be torn if it is booked as broken; reading as in C88, package by package |
| C90 | the reading side of C77 over a socket that returns an error (`Model/ReadFail.lean`), any number of layers, none too | simulation of three connections at once, over a silent, a closed and a failing socket (`Trio` in `Lemmas/ReadFail.lean`): their polls agree until the first two run dry; preserved by adding a layer, so by induction for all depths; then C02 and C86 for what the peer sent |
| C91 | the set-up of C80 and C81 over a socket that returns an error from a read (`Model/SetupFail.lean`) | the simulation of C90 extended to the phases of both key exchanges and to set-ups in each other (`Triplet` in `Lemmas/SetupFail.lean`), by induction over the layers and over the polls; outcomes from C81, progress from C80 (`C80_client_ends`, `C80_server_ends`: a closed connection is reported, not waited for) |
| C92 | `poll_shutdown` of any number of layers over a socket (`Model/LayerShutdown.lean`), after any history of C77 | how far the shutdown is as an invariant (`Closing`, `Over`), with induction on the layers for one poll and on the polls for a sequence, against the specification `shutdownResults`; that nothing is sent afterwards as an invariant under all later operations |
| C93 | the set-ups of `Model/LayerExchange.lean` and `Model/SetupFail.lean` with an arbitrary peer, then any sequence of `applyW` (`Model/LayerShutdown.lean`); `Spec/Nonces.lean` | an invariant of one encryptor (`EncOk`) that every encryption keeps, lifted through any layer over any transport (`KeepsW`), through all layers, and through the futures of the set-up (`Holding`); with C80 and C81 for which keys they are |
| C94 | the layers of `Model/Layers.lean`, in arbitrary states | induction on the depth for the wake-ups; the receiver invariant of C77 extended to reads that cross the end of a package, against a small function (`Spec/Wakeups.lean`) that says what reads give; `Lemmas/Wakeups.lean` |
| C95 | the endpoint of `Model/Endpoint.lean` | enabledness of single steps in arbitrary reachable states; induction on the list of events for the run that starts all handlers, and on the order for the run that answers them |
| C96 | `Model/System.lean`, `Model/Stack.lean` | the FIFO invariant of linked connections with C28, filtered to unprompted events (`Spec/OneWay.lean`); C57's refinement and C71 carry it over to bytes and fair executions |
| C97 | `Model/Bounded.lean`: `Model/System.lean` with a guard on the steps that write, for any rule for when there is room | refinement by projection; constructed runs that carry and read everything pending, with C25 and id invariants; an invariant for the state in which both sides wait; induction on the capacity for reaching it; the construction of C61 again, with everything pending read before each write (`Props/BoundedProgress.lean`); `Lemmas/Bounded.lean` |
| C98 | infinite executions of `Model/Bounded.lean`; `Spec/FairBounded.lean`: as in C69/C70, but a write is only assumed to happen (or fail) if there is room for it again and again (writers of a connection are served in order by its tokio mutex, and the one that holds it is woken when there is room) | if there were no room from some time on, nothing would be written, so the other side, which reads without writing (C97), would empty the connection; from this the fairness that C69 and C70 assume, for the requests and handlers of this connection (the way of a request, `Serving` in `Props/Fair.lean`, needs no more); the example has another connection that is stuck for ever; `Lemmas/FairBounded.lean` |
| C35, C36, C52, C56 | accept loop, per connection listeners, encrypted accept | induction on schedules; invariant |
| C37–C45, C53–C55, C59 | `CipherBox`, packages, poll machines of the encrypted halves, handshake; AEAD/DH abstract | induction on schedules; witnesses |
| C46, C47 | two endpoints and FIFO wires | composition of invariants; measure |
| C57, C58, C61 | two endpoints over plain, encrypted and multiply encrypted byte links | refinement of `System` by `Stack`; progress measures |
| C60 | key exchange followed by the link model | composition |

Where the code does not do what a user would expect, the property states exactly what it does (in most cases as an equivalence), says in brackets what
a user would expect, and the deviation is a theorem (`…_violated…`) with a concrete witness.
