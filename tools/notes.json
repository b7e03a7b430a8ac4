{
 "C83": {
  "note": "The full statement is false of the code: C83_lost is a concrete history in which the completion of a send is polled without its id. Proved: the id is told whenever the request for the connection was handed to the engine."
 },
 "C107": {
  "note": "An exchange that has work queued is served by the catch-up pass instead (C106), so its own lateness alone does not force the full tick; any other timer that is due ends it, too. Needs a positive stream timeout, else a new exchange is born overdue."
 },
 "C108": {
  "note": "rustls is an arbitrary machine with the Read/Write contracts as laws; C108_flushed assumes a rustls that comes to an end of what it has to send and then accepts something (`Sends`)."
 },
 "C109": {
  "note": "rustls is an arbitrary machine with the Read/Write contracts as laws. The theorem is about one exchange and any sequence of the calls the coordinator makes on it; the coordinator's own choice of calls is modelled for TCP (C67) only."
 },
 "C110": {
  "note": "rustls is an arbitrary machine with the Read/Write contracts as laws. C110_refused_witness is the excepted case: an exchange that fails because its unit does not fit."
 },
 "C111": {
  "note": "rustls is an arbitrary machine with the laws of Spec.Receives. C111_served_witness shows that the hypothesis on the time of deliveries is needed."
 },
 "C112": {
  "note": "The socket may answer anything. C112_lost shows that bytes not yet taken are lost when the peer resets the connection, contrary to a comment in the code."
 },
 "C114": {
  "note": "C116_lost and C116_delay show the two cases, an abort and a finished close, that this does not cover."
 },
 "C116": {
  "note": "The full statement is false of the code: C116_lost is a history in which an abort posted as the handshake completes is overwritten and the socket is never ready again; C116_delay one in which a graceful close is held up. Proved: without the completion of a handshake, five steps suffice."
 },
 "C125": {
  "note": "The local node's id and address are proved, not its state: C125_local_witness is a leave after which local_ref still says alive while the members list says left."
 }
}