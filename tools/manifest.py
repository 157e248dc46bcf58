#!/usr/bin/env python3
"""Writes MANIFEST.json from the theorem names in lean/Verif/Props (prefix Cnn_) and the notes below."""
import json, re, glob, os
root = os.path.dirname(os.path.dirname(os.path.abspath(__file__)))
names = {}
for f in sorted(glob.glob(root + '/lean/Verif/Props/*.lean')):
    for m in re.finditer(r'^theorem (C(\d\d)_\w+)', open(f).read(), re.M):
        names.setdefault('C' + m.group(2), []).append('Bromine.Props.' + m.group(1))
extra = {'C23': ['Bromine.Props.C26_answered_once']}
# property -> (status, note)
notes = {
 'C07': ('proved', 'Exact: C07_violated_iff (for which events) with C07_faithful; C07_silent_loss, C07_empty_namespace and C07_oversized_name_misread show what a user would not expect.'),
 'C08': ('proved', 'Exact: C08_panic_iff; C08_no_panic is the half a user relies on, the C08_violated_* theorems show panicking inputs.'),
 'C14': ('proved', 'C14_ids_unique, C14_nodup and C14_repeats_are_apart; C14_violated and C14_violated_execution show repetition after 2^32 events. The counter is atomic, so the history of ids is a sequence; the clock is arbitrary.'),
 'C90': ('proved', 'C90_read for all bytes, C90_plain and C90_peer_reads for what a peer sent, C90_after for what comes later; C90_violated_again is the panic that the statement mentions.'),
 'C92': ('proved', 'C92_polls (all polls against the specification), C92_completes, C92_one_layer; C92_violated_await and C92_violated_after are the parts of the statement that the code violates.'),
 'C93': ('proved', 'C93_server, C93_client (with _setup and _failing); C93_server_distinct, C93_client_distinct; C93_directions and C93_sessions say exactly where pairs of key and nonce are used twice, which a user would not expect.'),
 'C94': ('proved', 'C94_writes_woken, C94_emits_woken, C94_read_woken_iff for all states; C94_reads exactly; C94_violated and C94_violated_torn are the reads that never return, which the statement mentions.'),
 'C97': ('proved', 'C97_refines, C97_write_gets_through, C97_await_reply_can_complete and C97_stream_can_complete for all states and capacities; C97_stuck and C97_violated are the mutual waiting that the statement mentions.'),
 'C15': ('proved', 'C15_end_violated shows the type of Event::end that the statement mentions.'),
 'C19': ('proved', 'C19_drop_harmless, C19_drop_releases, C19_wire_exact, C19_read_before_torn; C19_violated shows a torn frame.'),
 'C21': ('proved', 'C21_no_reply_missed, with the proviso of the statement; C21_violated shows what happens without it.'),
 'C24': ('proved', 'Exact: C24_listener_iff; C24_leak, C24_late_reply, C24_violated show the effect of listeners that are left.'),
 'C25': ('proved', 'Exact: C25_goes_on_iff; C25_blocked and C25_violated show the effect of a slow stream.'),
 'C26': ('proved', 'C26_violated_panic is the case of a handler that panics, which the statement mentions.'),
 'C27': ('proved', 'The deviation from SPECIFICATION.md that the statement mentions is C27_violated_spec.'),
 'C29': ('proved', 'C29_no_ping_pong, and exactly C29_discarded_iff; C29_violated and C29_violated_race show End events that are answered.'),
 'C34': ('proved', 'C34_violated is the gap between the return of stop and the abort, which the statement mentions.'),
 'C35': ('proved', 'C35_served_in_order, C35_plain_ends_iff, C35_encrypted_ends_only, C35_exchange_decides; the C35_violated_* theorems show how a stranger ends the server.'),
 'C36': ('proved', ''),
 'C38': ('proved', 'Exact within a session: C38_directions_iff (two directions), C37_nonces (one direction); C38_violated, C38_violated_sessions show the reuse.'),
 'C39': ('proved', 'Exact: C39_prefix_iff with C39_roundtrip; C39_violated is the failure of events within 16 bytes of 2^32.'),
 'C43': ('proved', 'C43_prefix for one direction, C43_positions for both; C43_violated_reflection shows the reflection. Unforgeability is a hypothesis about the bytes that arrive, as explained in DESIGN.md.'),
 'C44': ('proved', 'Exact: C44_lost_wakeup_iff; C44_violated shows the read that never returns, C44_own_traffic that the library is not affected.'),
 'C45': ('proved', 'C45_wire_intact, C45_peer_reads, C45_drop_waiting; C45_violated_lost and C45_violated_dropped_flush show what a later emit suffers.'),
 'C48': ('proved', 'Exact: C48_emit_again, C48_await_reply_again, C48_stream_replies_again, C48_polled_emit_reused, C48_stream_panics_iff; C48_violated_after_timeout is the panic.'),
 'C49': ('proved', 'Exact: C49_tandem_panic_iff; error payloads never panic.'),
 'C52': ('proved', 'C52_violated is the blocked encrypted server that the statement mentions.'),
 'C53': ('proved', 'States what the code does; a user may expect the opposite.'),
 'C75': ('proved', 'C75_violated_lost: a run in which a write and a flush return Ok after an error, and the peer cannot read the data.'),
 'C76': ('proved', 'C76_violated_short: a client whose server sends a session key that is too short and closes waits for ever.'),
 'C54': ('proved', 'C54_client is what a client can rely on; C54_violated_server shows that a server learns nothing.'),
 'C61': ('proved', 'Possibility, not fairness: from every such state some continuation of forward steps (SysForward) completes the request.'),
 'C62': ('proved', 'States what the code does; a user may expect the opposite (handlers cannot usefully await replies from a peer that awaits them).'),
 'C63': ('proved', 'States what the code does; a user may expect the stream to end after an Error event.'),
 'C64': ('proved', 'Exact: C64_write_half_iff, C64_closed_iff, C64_server_loop_ends_iff; C64_violated_stop and C64_abandoned_goes_on are what a user would not expect.'),
 'C65': ('proved', 'States what the code does; a user may expect the earlier connections to be closed. C65_same_loop links the loop to the builder model of C31.'),
 'C60': ('proved', 'The session is the link model of C57/C58 started with the stream halves that the exchange produced; C60_clean covers events that are sent before the peer has completed.'),
 'C59': ('proved', 'C59_violated_read_u32 is the loss with read_u32 that the statement mentions.'),
 'C73': ('proved', 'Exact: C73_collide_iff, C73_distinct_iff; C73_violated shows the request that fails, which the statement mentions.'),
 'C87': ('proved', 'C87_violated_stuck: what a user would not expect, as the statement says.'),
 'C88': ('proved', 'C88_violated_after: later emits return Ok and are never read, as the statement says. Unforgeability is a hypothesis about the bytes on the wire, met by an example.'),
 'C89': ('proved', 'C89_violated_after and C89_violated_error_sent: what the statement says a user would not expect. Unforgeability is a hypothesis about the bytes on the wire, met by an example.'),
 'C55': ('proved', 'C55_violated_replay and C55_violated_events: the replay; C55_only_recorded: its limit.'),
}
def summary(p):
    """The comments of the first theorems."""
    docs = {}
    for l in open(root + '/THEOREMS.md'):
        m = re.match(r'- `((C\d\d)_\w*)` \([^)]*\): (.*)', l)
        if m and m[2] == p:
            docs[m[1]] = re.sub(r'^C\d\d[,:]? *', '', m[3])
    out = ''
    for n, d in docs.items():
        if len(out) + len(d) > 900 and out:
            out += 'See THEOREMS.md for the others. '
            break
        out += f'{n}: {d} '
    return out.strip()
props = [json.loads(l)['id'] for l in open(root + '/properties.jsonl')]
claims = []
for p in props:
    th = names.get(p, []) + extra.get(p, [])
    st, note = notes.get(p, ('proved', ''))
    if not th:
        print('no theorem for', p)
        continue
    if st == 'proved' and any(t.endswith('_partial') or '_violated' in t for t in th) and p not in notes:
        print('check', p, th)
    if not note:
        note = summary(p)
    claims.append({'property': p, 'status': st, 'theorems': th, 'note': note})
for p in names:
    if p not in props: print('theorems without property:', p)
json.dump({'claims': claims}, open(root + '/MANIFEST.json', 'w'), indent=1, ensure_ascii=False)
print(len(claims), 'claims', sum(len(c['theorems']) for c in claims), 'theorems')
