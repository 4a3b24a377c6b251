#!/usr/bin/env python3
"""Generates /verif/properties.jsonl (source of the property list)."""
import json, os
P=[]
def p(title, statement, quantifier, why, anchors):
    P.append(dict(id="C%02d"%(len(P)+1), title=title, statement=statement, quantifier=quantifier, why_tests_cant=why, anchors=anchors))
FR="puck/src/ws/frame.rs"; MS="puck/src/ws/message.rs"; WS="puck/src/ws/websocket.rs"; SD="puck/src/ws/send.rs"; UP="puck/src/ws/upgrade.rs"
RQ="puck/src/request/mod.rs"; RB="puck/src/request/builder.rs"; BD="puck/src/body/mod.rs"; MI="puck/src/body/mime.rs"
RE="puck/src/response/mod.rs"; REB="puck/src/response/builder.rs"; EN="puck/src/response/encoder.rs"; CO="puck/src/core/mod.rs"; RO="puck/src/core/router/mod.rs"; MU="puck/src/core/router/match_url.rs"; LB="puck/src/lib.rs"
HT="puck_liveview/src/html/mod.rs"; ID="puck_liveview/src/html/id.rs"; DF="puck_liveview/src/dom/element/diff/mod.rs"; AP="puck_liveview/src/dom/element/diff/changeset/apply.rs"; SE="puck_liveview/src/dom/element/diff/changeset/instruction_serializer.rs"; JS="puck_liveview/client/index.js"; CM="puck_liveview/src/component/mod.rs"; RN="puck_liveview/src/dom/element/render.rs"; CH="examples/chat/src/main.rs"; LI="examples/list/src/main.rs"
# ---------------- WebSocket frames
p("A sent WebSocket message is decoded unchanged by any RFC 6455 client",
  "For every message passed to WebSocket::send, the bytes written to the stream are exactly one final, unmasked RFC 6455 frame of the matching type (text/binary/ping/pong) whose payload is the message's payload, and an RFC 6455 decoder reading them, whatever bytes follow, recovers that frame and leaves the following bytes untouched.",
  "every message kind, every payload of any length representable in a 64-bit length, every suffix of later bytes",
  "payload length selects between three header layouts and is unbounded; tests can only sample lengths", [FR+"::Frame::format",FR+"::Frame::format_length",FR+"::From<Message> for Frame",SD+"::send",SD+"::send_frame"])
p("A history of sends reaches the wire in order, and a failed write leaves only a prefix",
  "For every sequence of messages sent on a socket and for every point at which the connection stops accepting bytes, the bytes on the wire are a prefix of the concatenation of the frames of the messages in order; send returns Ok exactly for the messages whose frame was completely written; if all sends succeed an RFC 6455 decoder recovers exactly the sent messages in order.",
  "every list of messages and every crash/short-write point of the connection",
  "crash points and message histories are unbounded", [SD+"::send_frame",WS+"::WebSocket::send"])
p("Sent frames use the minimal length encoding",
  "RFC 6455 5.2 requires the minimal number of bytes to encode the payload length: 7-bit form below 126, 16-bit form up to and including 65535, 64-bit form above. The frames written by the library use that form.",
  "every payload length", "only one length out of 2^64 (65535) is wrong", [FR+"::Frame::format",FR+"::Frame::format_length"])
p("A well-formed client frame is decoded to exactly what the client sent",
  "For every masked client frame (any flags, any opcode, any mask key, any non-empty payload, any of the three length forms) and every segmentation of the byte stream that does not split the first two bytes or the four mask bytes across reads, Frame::parse returns the flags, the opcode class and the unmasked payload the client sent, whatever follows the frame in the stream.",
  "every frame, every mask, every length form, every benign segmentation and every following traffic",
  "segmentations and payloads are unbounded", [FR+"::Frame::parse"])
p("Decoding a frame does not depend on how TCP segments the bytes",
  "The result of Frame::parse depends only on the bytes the client sent, not on how the network splits them into reads.",
  "every frame and every segmentation of its bytes", "the set of segmentations is exponential in the frame length and chosen by the network", [FR+"::Frame::parse"])
p("A frame is never invented: success means the bytes really encode that frame",
  "For every stream of reads (any segmentation, any I/O errors, any garbage), if Frame::parse returns Ok(frame) then the bytes delivered by the stream begin with an RFC 6455 encoding of that frame: the flag bits and opcode are those of the first byte, the declared length is the payload length, and the payload is the unmasked body.",
  "every byte stream, segmentation and error schedule", "adversarial input space", [FR+"::Frame::parse"])
p("Unmasked client payloads are always refused",
  "A client frame that announces a non-empty payload without the mask bit is refused with MaskNotSet and never delivered, for every opcode, flags, length form and payload.",
  "every unmasked frame with non-empty payload", "input space unbounded", [FR+"::Frame::parse"])
p("A truncated frame is never delivered",
  "If the connection ends before the announced number of payload bytes has arrived, Frame::parse returns an error (WaitForNextFrame with the exact number of missing bytes for a non-final frame, an I/O error otherwise) and never a frame.",
  "every truncated frame, every truncation point, every segmentation, every target word size",
  "crash points are unbounded; the failing case needs a 64-bit announced length on a 32-bit target", [FR+"::Frame::parse"])
p("No peer input can crash the frame parser",
  "Frame::parse returns Ok or Err for every byte stream; it never panics.",
  "every byte stream and segmentation", "the panicking announced lengths are a tiny part of a 2^64 space", [FR+"::Frame::parse"])
p("Frames sent back to back are all delivered",
  "If a client sends several frames one after the other, parsing repeatedly from the same stream yields each of them in order, however they are grouped into TCP segments.",
  "every list of frames and every segmentation", "depends on segment grouping chosen by the network", [FR+"::Frame::parse",MS+"::Message::next"])
p("An empty masked frame is consumed completely",
  "After a client's zero-length masked frame (six bytes: header and mask key) has been parsed, the next parse starts at the following frame.",
  "every zero-length masked frame and segmentation", "depends on segmentation", [FR+"::Frame::parse"])
p("Header bits and opcodes are decoded per RFC 6455 and no opcode is refused by the frame parser",
  "For every first byte, parse reports fin/rsv1/rsv2/rsv3 as bits 7..4 and the opcode class of the low nibble (0 continue, 1 text, 2 binary, 8 close, 9 ping, 10 pong, everything else reserved); InvalidOpCode is never returned; formatting a frame and re-reading its first byte gives the same flags and opcode class.",
  "all 256 first bytes, all frames", "must hold for the whole table and for every frame", [FR+"::Frame::parse",FR+"::OpCode::code",FR+"::Frame::format"])
# ---------------- messages
p("Fragmented messages are reassembled exactly",
  "If a client sends a data message as an initial non-final frame, any number of continuation frames, the last of which is final, Message::next returns one message of the initial frame's kind whose payload is the concatenation of all fragments in order.",
  "every number and size of fragments, every payload, every mask key per fragment, every segmentation aligned with frames and not splitting headers",
  "number of fragments unbounded", [MS+"::Message::next"])
p("Control frames may be interleaved with fragments",
  "RFC 6455 5.4 lets a client interleave ping/pong control frames between the fragments of a message; the message is still delivered.",
  "every fragmented message and every interleaving of control frames", "histories of frames", [MS+"::Message::next"])
p("Text messages are always the exact valid UTF-8 the client sent",
  "Message::next returns Text(s) only if the reassembled payload bytes are valid UTF-8 and s is exactly the string they encode; an invalid payload in a text message yields the protocol-violation error and never a message.",
  "every payload, every fragmentation (including fragments that split a code point)", "input space", [MS+"::Message::next"])
p("A close frame ends the message stream wherever it appears",
  "If the next frame is a close frame, or a close frame arrives between fragments of a message, Message::next reports that the client closed the connection, whatever the close frame's flags or payload, and no partial message is delivered.",
  "every position in every fragmented message, every close payload", "histories of frames", [MS+"::Message::next"])
p("Client messages round-trip through the server's decoder",
  "For every message (text, binary, ping or pong) encoded by an RFC 6455 client with any mask key, Message::next returns that message, with an empty ping/pong payload reported as no payload.",
  "every message with non-empty payload and every mask key; for empty payloads the frame delivered alone", "input space", [MS+"::Message::next",FR+"::Frame::parse"])
p("Every ping is answered by exactly one pong with the same payload before it is delivered",
  "Whenever the WebSocket iterator returns a Ping, exactly one pong frame carrying the same payload has been written to the stream during that call and nothing else.",
  "every stream contents and every history of calls", "histories", [WS+"::Iterator for WebSocket"])
p("A closed socket stays closed and silent",
  "Once the iterator has returned ConnectionClosed, every later call returns ConnectionClosed again without reading from or writing to the stream.",
  "every number of later calls and every stream contents", "histories", [WS+"::Iterator for WebSocket"])
p("At most one close frame is sent per connection",
  "Over the life of a WebSocket value (any sequence of reads and sends, then optionally close) at most one close frame is written in reply or on close.",
  "every history of calls on one socket value, failing writes and panics included (a copy made with make_copy is another value with its own state)", "histories", [WS+"::Iterator for WebSocket",WS+"::WebSocket::close",WS+"::WebSocket::make_copy",WS+"::send_close_frame"])
p("A lost connection is eventually reported as closed",
  "When the peer's connection ends without a close frame, the message iterator reports that the connection is closed (or ends).",
  "every stream that ends, every number of calls", "liveness over unbounded histories", [WS+"::Iterator for WebSocket",FR+"::Frame::parse"])
p("Reading never writes anything but pongs and one close reply",
  "A call of the iterator that returns Text, Binary, Pong or ClientError writes no byte; one that returns ConnectionClosed writes exactly one close frame the first time and nothing afterwards; the iterator never yields None.",
  "every history of calls on every stream", "histories", [WS+"::Iterator for WebSocket"])
p("No data is sent after the close frame",
  "Once the close handshake reply has been written, the library sends no further data frames on the socket.",
  "every history of calls", "histories", [WS+"::WebSocket::send",WS+"::WebSocket::close"])
# ---------------- upgrade
p("The upgrade decision is exactly the documented header test",
  "should_upgrade accepts a request iff it has an Upgrade header equal to 'websocket' ignoring ASCII case and a Connection header containing 'upgrade' ignoring ASCII case; HTTP header names are case-insensitive.",
  "every header map", "input space", [UP+"::should_upgrade"])
p("The handshake reply proves receipt of the client's key",
  "For a request with a Sec-WebSocket-Key, perform_upgrade returns true and writes exactly one 101 response with Upgrade: websocket, Connection: Upgrade and Sec-WebSocket-Accept equal to base64(SHA-1(key ++ GUID)), headers sorted, empty body.",
  "every key", "keys are unbounded", [UP+"::perform_upgrade",UP+"::compute_accept_header"])
p("The accept header is decodable base64 of the digest",
  "The Sec-WebSocket-Accept value has 28 characters of the RFC 4648 alphabet with padding and an RFC 4648 decoder recovers the 20 digest bytes; the base64 encoder is invertible on every byte string.",
  "every byte string / every key", "input space", [UP+"::compute_accept_header"])
p("A refused upgrade gets exactly one 400 response and no WebSocket",
  "Stream::upgrade returns a WebSocket iff the upgrade headers and the key are present; in every other case it writes exactly one complete 400 response and returns Err; it never writes both or neither.",
  "every request", "input space", [CO+"::Stream::upgrade",UP+"::perform_upgrade"])
# ---------------- body
p("A body never yields more than its declared length, under any read pattern",
  "For every reader, every declared length and every sequence of read calls with any buffer sizes, the total number of bytes returned never exceeds the declared length, the bytes returned are exactly the next bytes of the underlying reader in order, and no call panics by arithmetic underflow.",
  "every history of reads, every segmentation and I/O error schedule", "read histories are unbounded", [BD+"::Read for Body"])
p("Reading a body to the end yields exactly the declared prefix",
  "into_bytes returns exactly the first min(length, available) bytes of the reader (all of them if no length was declared), whatever the segmentation and whatever buffer sizes the standard library uses; into_string returns the same bytes as a string iff they are valid UTF-8 (for bodies whose declared length is at most isize::MAX; C111 is about the others).",
  "every reader contents, segmentation and buffer size schedule", "schedules", [BD+"::Body::into_bytes",BD+"::Body::into_string",BD+"::Body::from_reader"])
p("String bodies round-trip",
  "Body::from_string(s).into_string() returns s and into_bytes returns its UTF-8 bytes, with the declared length equal to the number of bytes; the empty body yields nothing.",
  "every string", "input space", [BD+"::Body::from_string",BD+"::Body::empty"])
# ---------------- request
p("The request head ends at the first blank line and the body starts right after it",
  "For every segmentation of the byte stream, Request::parse hands exactly the bytes up to and including the first CRLF CRLF to the header parser, and the request's body yields exactly the bytes after it, none lost or duplicated by read-ahead.",
  "every byte stream and every segmentation", "segmentations", [RQ+"::Request::parse"])
p("A connection that ends before the blank line yields Ok(None) and never a request",
  "Request::parse returns Ok(None) iff the stream ends without containing CRLF CRLF (in particular for an empty stream); an I/O error before the blank line yields Err.",
  "every byte stream, segmentation and error point", "crash points", [RQ+"::Request::parse"])
p("Request acceptance and the request URL follow a fixed decision table",
  "Given the header parser's result, Request::parse fails with MissingMethod, Utf8Error, MissingHeader(Host) or InvalidUrl in exactly that priority, and otherwise the URL is the absolute target itself, http://host+target for an origin-form target, or http://host/ for CONNECT; every accepted request has a Host header (any case).",
  "every result of the external header parser and URL parser", "input space", [RQ+"::Request::parse"])
p("Duplicate headers: the last one wins, and every stored value is the exact UTF-8 text received",
  "After Request::parse, looking up a header name gives the value of its last occurrence in the request head; a header occurs in the map iff it occurred in the head; any non-UTF-8 header value fails the whole request.",
  "every list of headers", "unbounded lists", [RQ+"::Request::parse"])
p("Request interpretation does not depend on hash-map iteration order",
  "The host and the content length used for a request are determined by the request alone, not by the iteration order of the header map (which is randomised per process).",
  "every request and every iteration order", "iteration order is a hidden schedule", [RQ+"::Request::parse"])
p("Methods survive being written and read back",
  "For every Method, the text written by Method::write on the request line is parsed back by Method::new_from_str to the same method.",
  "every method", "unbounded method names", [RQ+"::Method::new_from_str",RQ+"::Method::write"])
p("A written request parses back to the same request",
  "For every request with at most 20 well-formed headers including Host, writing it and parsing the bytes (in any segmentation) gives a request with the same method, the same headers, the same path and the same body bytes.",
  "every such request, every header iteration order and every segmentation", "input space", [RQ+"::Request::write",RQ+"::Request::parse"])
p("Writing a request preserves its query string",
  "The request line written by Request::write contains the query part of the request's URL.",
  "every URL", "input space", [RQ+"::Request::write"])
# ---------------- response
p("Response bytes are deterministic",
  "Encoding a response gives the same bytes whatever the iteration order of its header map: status line, headers sorted by name (bytewise), a blank line, then the body bytes.",
  "every response and every iteration order", "iteration order is a hidden schedule", [EN+"::Encoder::write_tcp_stream"])
p("An HTTP client recovers status, reason, headers and body from the encoded response",
  "For every response whose reason and headers contain no CR/LF (and whose header names contain no colon), an independent HTTP/1.1 response reader recovers the same status code, reason, header map and body bytes.",
  "every such response", "input space", [EN+"::Encoder::write_tcp_stream"])
p("Header values cannot inject additional headers",
  "A header value supplied by the application appears on the wire as one header line only.",
  "every header value", "input space", [EN+"::Encoder::write_tcp_stream",REB+"::ResponseBuilder::header"])
p("A parsed response's body is bounded by its Content-Length",
  "Response::parse yields a body of at most Content-Length bytes.",
  "every response stream", "input space", [RE+"::Response::parse"])
p("An encoded response parses back to the same response",
  "For every response with at most 20 well-formed headers and a non-numeric Content-Type, encoding it and parsing the bytes in any segmentation gives the same status, reason, headers and body bytes.",
  "every such response and segmentation", "input space", [EN+"::Encoder::write_tcp_stream",RE+"::Response::parse"])
p("Builders produce exactly what was configured",
  "For every sequence of builder calls, the built request/response has for each header name the last value set, the last body set (or an empty body), the last status and reason (200 and empty reason by default) and the last method; RequestBuilder::try_build fails iff no method was ever set.",
  "every sequence of builder calls", "unbounded call sequences", [RB+"::RequestBuilder",REB+"::ResponseBuilder"])
p("take_body hands over the body exactly once",
  "take_body/replace_body return the body that was in place, leave the new (empty) body behind so that a second take yields nothing, and set the Content-Type header to the new body's MIME type without touching any other header.",
  "every request/response and every number of calls", "histories", [RQ+"::Request::take_body",RQ+"::Request::replace_body",RE+"::Response::take_body"])
p("MIME parameters are serialised so that they can be parsed back",
  "For every MIME value, the text after the essence parses (WHATWG quoted-string rules) back to the same list of parameters: token values are written bare, all other values (including the empty one) quoted with every quote and backslash escaped.",
  "every parameter list", "input space", [MI+"::format",MI+"::EscapeMimeValue",MI+"::is_http_token_code_point"])
p("The canned error responses are complete, well-formed responses",
  "write_response(err_404()) and write_response(err_400()) write exactly one HTTP/1.1 response with status 404/400, a text/html content type and the documented body.",
  "every stream that accepts the bytes; every failure point leaves a prefix and panics", "crash points", [LB+"::err_404",LB+"::err_400",LB+"::write_response"])
# ---------------- router
p("URL matching is exact segment-by-segment matching",
  "A Match accepts a URL iff the URL's path has exactly as many segments as the pattern and each segment matches (equal text, anything, or an integer); in particular an empty pattern accepts no http URL, and a trailing slash adds an empty segment.",
  "every pattern and every URL path", "unbounded paths and patterns", [MU+"::Match::does_match"])
p("Integer segments accept exactly the 32-bit integers",
  "A path segment matches any_integer() iff it is an optional single sign followed by one or more ASCII digits denoting a value between -2^31 and 2^31-1.",
  "every string", "input space", [MU+"::Match::does_match"])
p("The first matching route handles the request, exactly once",
  "For every router, request and state, exactly the handler of the first registered route whose matcher accepts the request is run, once, with that request and state; if no route matches no handler runs and nothing is written.",
  "every route list and request", "unbounded route lists", [RO+"::Router::respond",RO+"::Router::route"])
p("Sending the router to another process does not change routing",
  "Rebuilding a router from the integers it was converted to gives a router that routes every request to the same handler.",
  "every router and every placement of functions in memory", "memory layouts", [RO+"::Router::as_ints",RO+"::Router::from_ints"])
p("Every connection is answered",
  "serve_router and Router::run answer every accepted connection with a response: the handler's, or an error response.",
  "every byte stream, segmentation and router", "input space", [CO+"::Core::serve_router",RO+"::Router::run",CO+"::Core::for_each"])
p("Connections do not influence each other",
  "What a connection receives depends only on its own bytes, the router and the state at bind time: it is the same whatever other connections were accepted before, including malformed ones and failed accepts.",
  "every sequence of accepted connections", "histories of connections", [CO+"::Core::serve_router",RO+"::Router::run"])
# ---------------- liveview: html
p("Generated element ids are unique and dense",
  "into_element numbers the elements of the produced tree consecutively in document order starting from the generator's current value, without repetition, and leaves the generator just past the last one used, so that further trees built from the same generator never reuse an id.",
  "every node tree and every generator state", "unbounded trees", [HT+"::WrappedBodyNode::into_element",ID+"::IdGen::new_id"])
p("into_element preserves tag, attributes, text, listeners and children as documented",
  "For every wrapped node that contains no bare text node, into_element succeeds and yields the node's tag, attributes, text and listeners, with the wrapped children of container nodes converted in order and those of leaf nodes (headings, links, labels, images, breaks, noscript) discarded; it panics iff a bare text node is converted; no produced element has a key.",
  "every node tree", "unbounded trees", [HT+"::WrappedBodyNode::into_element",HT+"::map_heading_to_element"])
# ---------------- liveview: diff
p("An unchanged view produces no instructions",
  "The changeset between an element tree and an identical one is empty.",
  "every tree with distinct sibling keys", "unbounded trees", [DF+"::Element::diff"])
p("Applying the changeset to the old view gives the new view",
  "For any two element trees, applying (Changeset::apply) the changeset between them to the old tree yields the new tree.",
  "every pair of trees (with unique ids)", "unbounded trees; the fuzz test in tests/diffing.rs only samples", [DF+"::Element::diff",AP+"::Changeset::apply"])
p("Keyed children are matched by key",
  "For two nodes whose children all carry keys, applying the changeset yields the new children in the new order: kept children are updated in place, removed ones deleted, new ones inserted at their position.",
  "every pair of keyed child lists", "unbounded lists and permutations", [DF+"::Element::diff_children",DF+"::Element::locate_child_by_key"])
p("Diffing never crashes the server",
  "Element::diff returns a changeset for every pair of trees.",
  "every pair of trees", "unbounded trees", [DF+"::Element::diff_children"])
p("Attribute updates are exact and order-independent",
  "Applying the attribute part of a changeset to the old attribute map yields exactly the new attribute map, whatever the iteration order of either map, touching only attributes that differ.",
  "every pair of attribute maps and every iteration order", "iteration order is a hidden schedule", [DF+"::Element::diff_attributes"])
p("Instructions survive the wire format",
  "The client recovers from the serialised instruction (el, ty, payload) the same tag/parent, attribute/value and listener/event that the server put in.",
  "every instruction", "payload strings unbounded", [SE+"::OpSerializer",JS+"::ws.onmessage"])
p("The first paint shows exactly the component's view",
  "After the browser has processed the first message of a session, the document body has gained exactly one subtree, equal to the component's first render: tags, ids, attributes, text, children in order and listeners.",
  "every element tree with unique ids", "unbounded trees", [DF+"::Element::create_from_scratch",JS+"::ws.onmessage",CM+"::main_loop"])
p("Updates keep the browser in step with the component",
  "After the browser has processed the changeset between two successive renders, its document shows exactly the new render.",
  "every pair of successive renders", "unbounded trees and histories", [DF+"::Element::diff",SE+"::OpSerializer",JS+"::ws.onmessage"])
# ---------------- liveview: component loop
p("The server's record of the page is always the component's latest render",
  "After any history of browser events and inputs, the listeners that can be triggered are exactly those of the component's current render and the next changeset is computed against exactly the tree last sent to the browser.",
  "every component, every history of mailbox messages", "histories", [CM+"::main_loop",CM+"::perform_diff"])
p("Only events for currently rendered listeners reach the component",
  "A browser message changes the component iff it is a text message holding a valid client message that names a listener of the current render (and carries a value if it is an input listener); click and submit listeners ignore any value; every other message (unknown listener, malformed JSON, binary, ping, pong, protocol error) changes nothing and sends nothing.",
  "every message in every state of every component", "adversarial input and histories", [CM+"::main_loop"])
p("One changeset per accepted update, in order",
  "In every history the messages sent to the browser are: the first paint, then for each accepted update, in order, exactly one changeset, the difference between the renders before and after that update; nothing else is sent.",
  "every history", "histories", [CM+"::main_loop",CM+"::perform_diff"])
p("Closing the connection stops the component",
  "Once the component loop has received ConnectionClosed it drops the component, processes no later message and sends nothing more.",
  "every history and every later mailbox content", "histories", [CM+"::main_loop"])
p("The component loop always starts with its identity and never hits an unreachable branch",
  "Under every interleaving of the manager, the WebSocket reader and outside senders, the first message the component loop receives is the WhoAmI message and no later message is one, so the unreachable branches are never executed; inputs and socket events are each received in the order they were sent, none lost or duplicated.",
  "every schedule of the three processes", "schedules", [CM+"::manage",CM+"::main_loop"])
p("The WebSocket reader stops when the connection is closed",
  "After the connection is closed the reader process stops sending messages to the component process.",
  "every schedule", "liveness over unbounded histories", [CM+"::manage"])
p("Rendering to HTML keeps distinct views distinct",
  "Element::render escapes text and attributes so that two different trees never render to the same HTML.",
  "every pair of trees", "input space", [RN+"::Element::render"])
# ---------------- examples
p("Chat: no two connected users share an id",
  "For every history of get_id and release_id calls (including spurious releases), an id handed out is not in use at that moment, ids in use are pairwise distinct, and a released id is handed out again before a fresh one.",
  "every history", "histories", [CH+"::UserIdCreator::get_id",CH+"::UserIdCreator::release_id"])
p("Chat: a message reaches every other registered user exactly once",
  "When a registered user sends a message, every other registered user's process receives exactly one ReceiveMessage with the sender's id, current user name and the contents, the sender gets the same message as reply, and nobody else gets anything.",
  "every reachable server state and every iteration order of the user map", "histories and orders", [CH+"::ChatServerState::handle"])
p("Chat: no schedule of users and browser events crashes the server or a component",
  "In the chat application, under every interleaving of connections, browser messages, message deliveries and disconnections, neither the coordinator's unwrap nor any component's unreachable! is reached.",
  "every schedule with any number of users", "schedules", [CH+"::LiveviewComponent::update",CH+"::ChatServerState::handle",CM+"::main_loop"])
p("List: items are kept in submission order",
  "After any history of requests, AllItems returns every added item exactly once in the order added.",
  "every history", "histories", [LI+"::List::handle"])
p("List: LastN(n) returns the last n items",
  "LastN(n) returns the n most recently added items (all of them if there are fewer).",
  "every history and every n", "histories", [LI+"::List::handle"])
p("List: /read/<integer> never crashes the handler",
  "Every request routed to the read handler is answered.",
  "every request URL", "input space", [LI+"::main",MU+"::Match::does_match"])
# ---------------- added later
p("A request's body is exactly the Content-Length bytes after the head",
  "After Request::parse, into_bytes on the request's body returns the first n bytes after the head (all there are, if fewer) when the only Content-Length spelling has the decimal value n, and all following bytes when there is no such header or it is not a number.",
  "every byte stream, segmentation, header spelling, header value and standard-library buffer schedule",
  "unbounded streams and read schedules; the read-ahead of the buffered reader can only go wrong for particular segmentations",
  [RQ+"::Request::parse", BD+"::Body::into_bytes"])
p("A request without Content-Length has an empty body",
  "The body of a request without Content-Length (such as a GET) is empty: it does not contain later bytes of the connection such as a pipelined request (RFC 7230 3.3.3).",
  "every following byte string and segmentation",
  "depends on what else arrives on the connection",
  [RQ+"::Request::parse", BD+"::Body::read"])
p("Responses are framed: a client can tell where one ends",
  "The bytes written for a response determine where its body ends, so two responses written one after the other on a connection can be told apart (RFC 7230 3.3.3).",
  "every response and every continuation of the connection",
  "a test sees one response on a connection that is then closed; the claim is about every continuation",
  [EN+"::Encoder"])
p("Only a complete RFC 6455 handshake is upgraded",
  "A request is upgraded only if it satisfies RFC 6455 4.2.1: method GET, Sec-WebSocket-Version 13 and a Sec-WebSocket-Key that decodes to 16 bytes.",
  "every request", "ranges over all requests",
  [UP+"::should_upgrade", UP+"::perform_upgrade"])

p("A connection that ends without a close frame also stops the component",
  "When the browser's connection ends, with or without a WebSocket close frame, the component loop of that connection ends and drops the component.",
  "every history and every way a connection can end", "liveness over unbounded histories; needs a dropped connection at every point", [CM+"::manage", CM+"::main_loop", WS+"::WebSocket::next"])
p("Concurrent sends on one connection do not mix",
  "The component loop and the WebSocket reader process, which answers pings and close frames, write to the same TCP stream; the bytes on the wire are always a sequence of complete frames.",
  "every interleaving of the writes of the two processes", "schedules", [SD+"::send_frame", WS+"::WebSocket::make_copy", CM+"::manage"])
p("An event on a shown element reaches exactly its listener",
  "For every element the browser shows and every event the user triggers on it, the server runs update with exactly the input of the listener registered under that name in the current render (for input events applied to the text typed).",
  "every component, render, element, listener and typed text", "ranges over all components and histories", [JS, CM+"::main_loop"])
p("Over a whole session the browser shows the component's current render",
  "After every prefix of every session, once the browser has processed everything sent, the page shows the component's current render.",
  "every component, every session and every browser state of the surrounding page", "histories and the composition of diff, serialisation and the JavaScript client", [CM+"::main_loop", DF+"::Element::diff", JS])
p("Chat: the browser always shows the current view",
  "In the chat application, under every interleaving of connections, typing, clicks, deliveries and disconnections, each user's browser, once it has processed what it was sent, shows the user's current view: the name form or the greeting, the text field with what was typed, and every message received, in order.",
  "every schedule with any number of users and any texts", "schedules, unbounded histories and texts", [CH+"::LiveviewComponent::render", CM+"::main_loop", JS])
p("List: a read page shows exactly the messages submitted before it",
  "After any history of HTTP requests, the page served for /read contains exactly the items submitted by the earlier POST /submit requests, in order.",
  "every history of requests", "histories", [LI+"::main", LI+"::List::handle", RO+"::Router"])
p("List: every POST /submit is answered",
  "Every POST request to /submit receives a response.",
  "every request body", "input space", [LI+"::submit"])
p("List: the stored item is the text the user typed",
  "Submitting the form with a text stores that text as the new item.",
  "every text", "input space: texts with spaces, punctuation or non-ASCII characters", [LI+"::submit"])
p("Chat: all users see the same messages in the same order",
  "In the chat application any two registered users see the messages in the same order.",
  "every schedule with any number of users", "schedules", [CH+"::ChatServerState::handle", CH+"::LiveviewComponent::update"])
p("Chat: a user who disconnects is removed and only that user",
  "When a registered user's connection is closed, the coordinator forgets that user, releases exactly that id, and no other user's registration, id or messages change.",
  "every reachable state of the application", "histories", [CH+"::LiveviewComponent::drop", CH+"::ChatServerState::handle"])
p("Rendered HTML is read by a browser as the element that was rendered",
  "A browser's HTML tokenizer reads the output of Element::render as the element's tags, attributes and text, nested in the same way.",
  "every element tree", "input space: all names, attributes and texts", [RN+"::Element::render"])

p("A changeset arrives in the browser as the instructions that were sent",
  "For every changeset, whatever strings its instructions contain (quotes, backslashes, control characters, any script), the text sent is valid JSON that denotes exactly those instructions in order, the browser's handler does to the page exactly what they say, and different changesets are sent as different texts.",
  "every list of instructions over all strings", "input space: every Unicode string in every field; escaping bugs show only for particular characters", [SE+"::InstructionSerializer", CM+"::main_loop", CM+"::perform_diff", JS])
p("An event arrives at the server as the browser sent it",
  "For every listener name and every text the user typed, the message the browser sends for the event is read by the server as exactly that listener and that text.",
  "every listener name and every typed text", "input space: every Unicode string", [JS, "puck_liveview/src/client/mod.rs::ClientMessage", CM+"::main_loop"])
p("The server acts on exactly the texts that are JSON events",
  "A text message is taken for an event exactly if it is a JSON text denoting an object with one string member listener and at most one member payload (null, or carrying one string value), in any order and with any other members, or the equivalent array; every other text is ignored without changing or sending anything.",
  "every text message from any client and every loop state", "all byte strings a client can send", ["puck_liveview/src/client/mod.rs::ClientMessage", CM+"::main_loop"])
p("From component to page and back over the bytes of the connection",
  "The bytes the server writes in a session, decoded as RFC 6455 frames, UTF-8 and JSON and executed by the browser client, make the page show the component's current render; and the bytes of the frame a browser sends for an event, however segmented, make the server update the component with exactly what the registered listener asks for.",
  "every component, session, event, typed text and segmentation of the incoming frame", "composition of diff, JSON, UTF-8, framing and the client over unbounded histories and segmentations", [CM+"::main_loop", SD+"::send_frame", MS+"::Message::next", JS])

p("The liveview page and script are served complete and with the right type",
  "init::index() is written as a 200 response of type text/html whose body is the page that loads ./js, init::js(script) as a 200 response of type application/javascript whose body is exactly the client script, for any header-map order, and an independent HTTP reader reads them back so.",
  "every script text, header iteration order and connection", "map iteration order and arbitrary script text", ["puck_liveview/src/init.rs::index", "puck_liveview/src/init.rs::js"])
p("Wherever the page is mounted as documented, the browser finds its script and WebSocket",
  "If index() is mounted at any path and js() at /<that path>/js (and the WebSocket at /<that path>/ws), then the browser's requests for the script and the WebSocket reach those routes.",
  "every mount path and every page URL it matches", "ranges over all mount paths; the examples only mount at the root", ["puck_liveview/src/init.rs::index", "puck_liveview/src/init.rs::js", JS, RO+"::Router"])
p("Chat: the page, its script and its WebSocket are served",
  "The chat application answers / with the page, the script path the browser derives from it with the client script, and the WebSocket path with the handshake (or an error response for other requests); it writes nothing for any other path.",
  "every request, header map, key and connection", "all requests", [CH+"::main", "puck_liveview/src/init.rs::index", UP+"::perform_upgrade"])

p("Nothing sent to a component waits for ever",
  "In every fair execution (each process that can go on does go on) every input sent to a component's process and every result its WebSocket reader was given is received by the component loop at some time, each in the order it was sent, and the loop receives nothing else.",
  "every component, every infinite fair execution of manager, reader, loop and outside senders, every moment", "liveness over infinite schedules",
  [CM+"::manage", CM+"::main_loop"])
p("A client's messages are handled and its close frame ends the component",
  "In every fair execution in which the reader does not die, all messages a client sends are received by the component loop at some time, in order; and if a close frame follows them, the component is dropped at some time and stays so.",
  "every list of client messages, every segmentation into aligned reads, every infinite fair execution", "liveness over infinite schedules",
  [CM+"::manage", CM+"::main_loop", WS+"::Iterator for WebSocket::next"])

p("A serialised changeset can be read back as its owned analogue",
  "Serialising any changeset to JSON and deserialising the text as DeserializeChangeset yields the same instructions, in order, with the same elements and strings.",
  "every changeset, whatever strings it contains", "all element trees and strings; the tests deserialise single samples",
  ["puck_liveview/src/dom/element/diff/changeset/mod.rs::Changeset", "puck_liveview/src/dom/element/diff/changeset/mod.rs::DeserializeChangeset", "puck_liveview/src/dom/element/diff/changeset/mod.rs::DeserializeInstruction"])
p("The element builder yields exactly what was set",
  "ElementBuilder::build() succeeds exactly if all seven fields have been set, and yields the element with the values set last, for any order and repetition of setter calls.",
  "every sequence of setter calls", "all call sequences", ["puck_liveview/src/dom/element/mod.rs::Element::build"])

p("Between renders of the same structure the browser is kept in step exactly when it can follow the changes",
  "For two successive renders with the same structure and tags, whose names and values survive the wire format, the browser shows the second render after processing the changeset if and only if: no non-empty text is taken away, no text changes on an element with children, and below an element whose listeners change every element that keeps its listeners has none. If the condition fails, no page showing the first render ends up showing the second.",
  "every pair of renders of the same structure, every page, every browser", "all pairs of trees, and an exact boundary: tests find neither all failures nor that there are no others",
  [DF+"::Element::diff", JS])

p("Requests to the chat coordinator behave as if they took no time",
  "Requests, broadcasts and replies travel as messages between processes, and a component waits for the reply to its request while its own mailbox goes on filling. Every such execution - whatever the interleaving, with processes killed at any moment, also while waiting - ends in the same coordinator state, the same components and pages, and the same browser messages as some execution in which every request takes no time (except perhaps the last browser message of a process still waiting or killed while waiting). The coordinator never panics or gets stuck, and no component waits for a reply that is not coming.",
  "every interleaving of any number of connections, coordinator steps, browser events and deaths", "interleavings of concurrent processes, unbounded",
  [CH+"::update", CH+"::handle", CH+"::drop", CM+"::main_loop"])

p("In a fair execution every chat message arrives, every click is acted on, and nobody waits for ever",
  "If every process that can go on does go on at some time, then in the chat: a process waiting for the coordinator gets its reply; a click on the registration button that has reached a component's mailbox leads to the user being registered; a registered user's click on send leads to the coordinator accepting the text the component has at that time; and every message accepted since a user registered is at some time shown by that user's component (own messages and others' messages each in the order of acceptance) and, if the user types no plus sign, on the user's page - unless that user's process is killed or its connection closes.",
  "every infinite fair execution with any number of connections, kills and browser events, every moment, every user, every message", "liveness over infinite schedules",
  [CH+"::update", CH+"::handle", CH+"::render", CM+"::manage", CM+"::main_loop"])

p("Whatever part of the bytes has arrived, the browser shows a view the component had",
  "While the component loop sends its updates and the reader process answers pings on the same connection (frames not mixed), after any number of bytes - also when the connection fails in the middle - the browser's page is the page as served, or that page plus one subtree showing a view the component has had: never a mixture of views or half of one. More bytes lead to the same or a later view, and all the bytes to the current one. The same holds for each user of the chat in every execution of the whole application.",
  "every component whose messages keep the page in step (C84), every history, every order of the two processes' frames, every number of bytes received; for the chat every execution", "all byte positions, histories and orders",
  [CM+"::main_loop", CM+"::perform_diff", WS+"::Iterator for WebSocket::next", JS, CH+"::render"])

p("What a client sends after the handshake request reaches the WebSocket",
  "Every byte a client sends after its WebSocket handshake request is read by the WebSocket that Stream::upgrade returns: whatever the segmentation, the first frame is the first thing the socket reads.",
  "all byte sequences and segmentations of the request and of what follows", "every place where the network may cut the stream",
  [RQ+"::Request::parse", CO+"::Stream::upgrade", WS+"::WebSocket::new"])

p("A whole liveview session from the first byte",
  "A client that sends a WebSocket handshake request for the chat's socket (any accepted spelling of the head, in any reads ending where the head ends) and then messages, each in its own reads, gets the 101 response for its key, and the messages are received by the component loop in order in every fair execution; a close frame ends the component.",
  "all request heads, keys, segmentations, message sequences, components and fair executions", "unbounded messages and infinite executions",
  [RQ+"::Request::parse", RO+"::Router::respond", CO+"::Stream::upgrade", WS+"::Iterator for WebSocket::next", CM+"::manage", CM+"::main_loop"])

p("A whole HTTP exchange, from the client's bytes to the client's bytes",
  "In any history of the server (other connections, failing accepts and spawns, crashing handlers, any schedule), a client that sends a well-formed request in any reads reads back exactly the status, reason, headers and body of the response that the first matching handler returns for that request, and nothing if no route matches. With puck's own client code on the other side (Request::write, Response::parse), method, headers and body arrive unchanged in both directions.",
  "all requests, segmentations in both directions, routes, responses, and server histories", "all inputs, segmentations and schedules",
  [CO+"::Core::serve_router", RO+"::Router::run", RO+"::Router::respond", RQ+"::Request::parse", RQ+"::Request::write", RE+"::Response::parse", EN+"::Encoder::write_tcp_stream"])

p("The list application shows what was submitted, over bytes",
  "Whatever connections the list example has served - form submissions, requests for other pages, incomplete requests, in any segmentation - a client asking for /read/<number> is answered with the page showing exactly the texts submitted before, in order.",
  "all sequences of connections, their bytes and segmentations", "unbounded histories and all segmentations",
  [LI+"::main", LI+"::handle", RQ+"::Request::parse", BD+"::into_string"])

p("Reading the body of a received request as text never crashes the handler",
  "For every request a client can send, into_string on its body returns the text if the body is valid UTF-8 and an error if not; it does not panic, whatever Content-Length the client declares.",
  "every request head, declared length, body and segmentation", "the range of declared lengths and all bodies",
  [BD+"::into_string", RQ+"::Request::parse", LI+"::main"])

p("Message::next decodes the next message from any reader that can be cloned",
  "Message::next returns, and the message it returns is the one the bytes of the reader contain, for every reader it accepts (Read + Clone): a TCP stream, a Cursor or a byte slice.",
  "every reader (clones that share the position and clones that copy it) and all bytes", "all inputs, and termination",
  [MS+"::next", FR+"::Frame::parse"])

p("An event is acted on as the view in which the user triggered it says",
  "Events travel to the server while changesets travel to the browser. In every interleaving, if the component acts on an event, it performs the update that the listener stood for in the view the browser showed when the user triggered it, not another one.",
  "all components, histories of events, changesets and inputs from other processes, and all interleavings of the two directions", "all interleavings of two queues",
  [CM+"::main_loop", CM+"::perform_diff", JS+"::ws.onmessage"])

p("No event is lost",
  "In every interleaving of events, changesets and inputs, an event that reaches the component loop is acted on whenever its listener stood for an update in the view the browser showed when the user triggered it.",
  "all components, histories and interleavings", "all interleavings of two queues",
  [CM+"::main_loop", CM+"::perform_diff", JS+"::ws.onmessage"])

p("An event runs the listeners of the element and of those around it, innermost first",
  "When an event happens in an element of the shown view, the component is updated with exactly what the listeners for that event ask for: those of the element, then those of each element around it, each once, in the order they are attached, with the field's value for input events.",
  "all views, elements, events, values and components", "all trees and paths in them",
  [CM+"::main_loop", JS+"::addEventListener", "puck_liveview/src/dom/listener.rs::Listener"])

p("A field shows the value the component's view gives it",
  "When the browser has processed everything the server sent, every input field of the page shows the text that the component's current view gives as its value, so that a component can for instance clear a field after sending.",
  "all components, histories, and interleavings of typing with messages from the server", "all interleavings and histories",
  [JS+"::setAttr", DF+"::diff_attributes", CM+"::perform_diff"])

p("The view builder yields exactly what was given to it",
  "After wrapping a node and any sequence of listener, child and children calls, the element made from the view has the node's tag, attributes and text, exactly the listeners given, in the order of the calls, and, for a container, exactly the children given, in the order of the calls.",
  "all nodes, sequences of builder calls and generator states", "all call sequences",
  ["puck_liveview/src/html/mod.rs::listener", "puck_liveview/src/html/mod.rs::child", "puck_liveview/src/html/mod.rs::children", "puck_liveview/src/html/mod.rs::wrap"])

p("Each instruction changes exactly the element it names",
  "Changeset::apply executes one instruction by changing the element it names as the instruction says (attributes, text, tag, listeners, id, a new last child, a new sibling directly after or before, removal with everything below it) and nothing else in the tree; it panics exactly if the element (the parent, the sibling) it names does not exist.",
  "all trees with distinct ids and all instructions", "all trees and instructions",
  [AP+"::apply", AP+"::find_el_with_id", AP+"::find_parent_id"])

p("A conforming client accepts every frame the server sends",
  "Every message sent through a WebSocket, and every frame the socket writes on its own (pongs, close replies), is a frame that RFC 6455 lets a server send: unmasked, reserved bits zero, length in the shortest form, control frames of at most 125 bytes, text in UTF-8. A client that fails the connection on any violation reads exactly the messages sent, for every history of the socket.",
  "all messages, all histories of calls and all client bytes", "all messages of any length and unbounded histories",
  [FR+"::Frame::write", FR+"::format_length", SD+"::send", WS+"::Iterator for WebSocket::next"])

p("What the WebSocket iterator reports is what RFC 6455 says",
  "The iterator reports the messages, the close, or the error that RFC 6455 prescribes for the frames the client sends: legal frames give their messages in order, and a frame that RFC 6455 forbids (reserved bits, unknown opcode, long or fragmented control frame, a length not in the shortest form, a continuation of nothing, a new message inside another, text that is not UTF-8) gives an error.",
  "all sequences of client frames", "unbounded sequences of frames of any content",
  [FR+"::Frame::parse", MS+"::next", WS+"::Iterator for WebSocket::next"])

p("The body a handler reads is the body the client framed",
  "The body that a handler reads from a request consists of the bytes that RFC 9112 6.3 makes the request's body: the decoded content with Transfer-Encoding chunked, else as many bytes as Content-Length says, else none; a request with Content-Lengths that disagree is refused.",
  "all request heads, bytes after them and segmentations", "all inputs and segmentations",
  [RQ+"::Request::parse", BD+"::Body", BD+"::into_bytes"])

p("A changeset holds what the change calls for and nothing else",
  "The changeset between two views contains an instruction exactly if something changed that calls for it: a tag, attribute, text, listener list or id that differs between the elements at the same position, an element without a successor, an element without a predecessor (with all its contents). It is never longer than the two views together (two instructions per element, one per attribute and listener), and the first paint no longer than the view.",
  "all pairs of views", "all trees of any size",
  [DF+"::Element::diff", DF+"::diff_attributes", DF+"::diff_children", DF+"::create_from_scratch"])

p("Chat: what is sent is what the fields showed at the click",
  "In the chat example the text of a message that is sent is the text the field for messages showed in the user's browser at the moment of the click on the button for sending, and the name a user is registered under is the text the name field showed at the moment of the click on its button. A click on the button for sending that is handled sends exactly one message; nothing else sends one.",
  "every sequence of typing and clicking anywhere in the page, with any text (also with a '+' in it), every interleaving with changesets and events under way and with messages of other users, every page the view is painted into",
  "The field shows what was typed, the component knows what the events told it, and the changesets it sends back write to the field's attribute, all with delays; a test tries a few of the interleavings.",
  [CH+"::LiveviewComponent::update", CH+"::LiveviewComponent::render", CM+"::main_loop", "puck_liveview/client/index.js::attachListener"])

p("A new keyed child is inserted at its place",
  "When all children of an element have keys, the changeset has, for each child whose key is new, exactly one kind of instruction: to insert it, naming a neighbour such that it ends up where the new view has it (before the child that follows it, or after the child it follows).",
  "all pairs of trees, with any number of new, kept and removed keyed children at every level", "all trees and all positions of the new children",
  [DF+"::diff_children", DF+"::locate_child_by_key"])

p("Acting on a view does not lead away from the page",
  "When a user clicks on an element of a component's view or presses Enter in one of its fields, the event goes to the component and the user stays on the page, with its connection and the component's state, and sees the component's answer.",
  "all components, all reachable views, all deeds of the user and all interleavings with changesets, events under way and other inputs",
  "What the browser does by itself after an event depends on the structure around the element (a form, a link) in every view a component can produce, at every moment of a session.",
  ["puck_liveview/client/index.js::attachListener", CM+"::main_loop", CH+"::LiveviewComponent::render"])

p("Sending a response reports its outcome",
  "Stream::respond never crashes: it returns Ok exactly if the body could be read to its end and the connection took every byte of the response, and Err otherwise; in both cases the client has got the response's bytes in their order up to the point where the connection or the body failed, and nothing else.",
  "every response, header order, body source (with failing reads) and connection (breaking after any number of bytes)", "every point at which a connection or a body can fail",
  ["puck/src/core/mod.rs::Stream::respond", RE+"::Response", EN+"::Encoder::write_tcp_stream"])

p("Writing a request or response uses up its body and nothing else",
  "After Request::write has returned Ok (and likewise after an Encoder has written its response), the request has the method, URL and headers it had, its body yields no byte, however it is read, and still declares its length; writing it a second time does exactly what writing the same request with an empty body would do.",
  "every request and response, body source and connections", "all bodies and all ways of reading them",
  [RQ+"::Request::write", EN+"::Encoder::write_tcp_stream", BD+"::Body"])

p("Writing a request reports its outcome",
  "Request::write never panics: it returns Ok exactly if the body could be read to its end and the writer took every byte of the request, and Err otherwise; in both cases the writer has got the request's bytes (request line, every header exactly once, blank line, body) in their order up to the point where the writer or the body failed, and nothing else.",
  "every request, header order, body source (with failing reads) and writer (failing after any number of bytes)", "all requests, bodies and crash points",
  [RQ+"::Request::write", BD+"::Body"])

p("What is framed is waited for, and nothing else",
  "Request::parse (and Response::parse) return as soon as the blank line that ends the head has arrived, and reading a body whose declared length has arrived (read_to_end, into_bytes, into_string, copying it to a writer) returns the declared bytes: neither reads the connection once more, so the result is the same whether the client then sends more, waits with the connection open, or closes it, and what it sends later is left for whoever reads next.",
  "every byte stream, every segmentation of it into reads, every continuation", "A test sees one segmentation and one continuation; that no further read is made must hold for all of them.",
  [RQ+"::Request::parse", RE+"::Response::parse", BD+"::Body::into_bytes", BD+"::Body::into_string"])

p("A client that has sent its request is not waited on for more",
  "When a client has sent a complete request (head, and the body its Content-Length declares, or no body if it declares none), a handler that reads the request's body to its end gets on without anything more from the client; likewise for reading the body of a response.",
  "every request or response, every segmentation", "all requests with and without a body, all segmentations",
  [RQ+"::Request::parse", RE+"::Response::parse", BD+"::Body"])

p("The list application is linearizable",
  "However the requests of concurrent clients are interleaved, there is one order of the submissions and reads such that the list holds exactly the texts submitted, in that order, each once; every served submission was answered with the page that says so; every served read was answered with exactly the texts submitted before it in that order; and a request answered before another connection was accepted comes before it. Every other connection (the form, unknown pages, malformed requests, crashing handlers) is served as if it were the only one and changes nothing.",
  "every number of connections, every byte sequence on each, every interleaving of their processes with the list process", "A test runs a few interleavings.",
  ["examples/list/src/main.rs::main", "examples/list/src/main.rs::List", "puck/src/core/mod.rs::Core::serve_router"])

p("Concurrent clients of the list application agree on the list",
  "Clients over HTTP: whoever submits a text and then (once answered) reads the list finds it there, texts submitted one after the other appear in that order, nothing is shown that was not submitted and nothing twice, and of any two readers one sees a beginning of what the other sees - the one that read earlier sees the beginning.",
  "every number of clients, segmentation and interleaving", "consistency is a property of all histories",
  ["examples/list/src/main.rs::main", "examples/list/src/main.rs::List", RQ+"::Request::parse", "puck/src/core/mod.rs::Stream::respond"])

p("Every client of the list application is served",
  "Under fair scheduling the process of every accepted connection ends - answered, or crashed on its own request - however many clients there are and whatever they send; no client can block another for ever and the connections' processes and the list process never wait for each other in a circle.",
  "every infinite fair history, connections accepted for ever", "liveness over infinite schedules",
  ["examples/list/src/main.rs::main", "examples/list/src/main.rs::List", "puck/src/core/mod.rs::Core::serve_router"])

p("Every request sent on a connection is answered",
  "A client that sends several requests one after another on one connection (HTTP/1.1 connections persist unless one side says otherwise) is sent a response to each, in order.",
  "every number of requests, bodies and segmentation; every router and state", "needs every sequence of requests and every history of the server",
  [CO+"::Core::serve_router", CO+"::Stream::respond", RO+"::Router::run", RQ+"::Request::parse"])

p("The answer to a HEAD request has no body",
  "A client that asks with HEAD is sent the status and headers that GET would give it and no body.",
  "every target, header set, router and handler", "over all handlers and requests",
  [CO+"::Stream::respond", RQ+"::Method::new_from_str", EN+"::Encoder"])

p("Every header added to a response is sent",
  "For every header an application adds to a response - also when it adds several with the same name, such as Set-Cookie - the client is sent a field with that name and value.",
  "every sequence of builder calls", "over all sequences of calls",
  [REB+"::ResponseBuilder::header", REB+"::ResponseBuilder::headers", EN+"::Encoder"])

p("A client cannot make the server hold more than a fixed amount",
  "What the server keeps in memory of a client's bytes before the application has had a chance to refuse them is bounded by a constant: the head of a request, what is read ahead of it, and a WebSocket message.",
  "every byte sequence and segmentation a client can send", "unbounded sizes",
  [RQ+"::Request::parse", FR+"::Frame::parse", MS+"::Message::next"])

p("What the chat knows of a user is what that user did",
  "Whatever all users, readers and the scheduler do: the name, the text in the message field and the user's own messages that a chat component shows are exactly what follows from the events that user's browser has sent, up to the point the component has got to - each sent text once, in order, under the name chosen before entering.",
  "every execution, any number of users, every sequence of messages of every browser", "over all interleavings of all users",
  [CH+"::LiveviewComponent::update", CH+"::LiveviewComponent::render", CM+"::main_loop"])

p("The chat log holds exactly what its users sent",
  "Every message the coordinator ever accepts has an author, once and for all, and the messages of each author are exactly the texts this author's browser sent, up to some point: each once, in order, under the name the author chose. Nothing is logged that nobody sent, nothing twice, nothing under somebody else's name.",
  "every execution, any number of users", "over all interleavings of all users",
  [CH+"::LiveviewComponent::update", CH+"::ChatServerState::handle", CM+"::main_loop"])

p("Whatever a user sends is shown to everybody who is there",
  "Under fair scheduling, every event a browser sends is acted upon, and every text a user sends after another user has entered is shown on that other user's page, in the order sent and under the sender's name - unless the process of one of them is killed or its connection closed.",
  "every infinite fair execution, any number of users", "liveness over infinite schedules",
  [CH+"::LiveviewComponent::update", CH+"::ChatServerState::handle", CM+"::main_loop"])

p("A response that breaks off is never taken for a response",
  "Response::parse returns Ok(None) exactly if the stream ends without containing CRLF CRLF; an I/O error before the blank line yields Err; no response is produced from an incomplete head.",
  "every byte stream, segmentation and error point", "crash points",
  [RE+"::Response::parse"])

p("A request whose sending failed can be sent again",
  "If Request::write fails because the connection breaks, writing the same request to another connection sends the whole request.",
  "every request, every body, every point at which the connection breaks", "every crash point",
  [RQ+"::Request::write", BD+"::Body::read"])

p("What people type never becomes part of a page's structure",
  "If a component's views are made of certain tags, attributes with certain values and listeners, and anything may be in their texts, then after any number of changesets the page in the browser is the page there was followed by trees made of those tags, attributes and listeners only: nothing typed by anybody becomes an element, an attribute's name or a listener. In the chat, every page at all times consists of div, input, p and h3 elements with the program's own input types, placeholders and four listeners.",
  "every vocabulary, component, sequence of messages and events, page and browser whose innerHTML keeps within the vocabulary; for the chat, every execution of all processes and everything typed",
  "injection attacks are about inputs nobody thought of; every string, in every position and after every history, has to be covered",
  [DF+"::create_from_scratch", DF+"::diff", SE+"::OpSerializer", JS+"::ws.onmessage", CM+"::main_loop", CH+"::render"])

p("Chat: what a user types and does not send is seen by nobody else",
  "Take any course of events of the chat application and another one in which the same things happen in the same order, except that one user's browser sends other texts. If what this user has made public (the name entered under, the texts sent) is the same after each of its messages, then the second course of events is possible as well and everything but this user's own page is the same: the coordinator's state, every other user's processes and mailboxes, and every operation ever sent to another user's browser. Drafts, names typed and deleted, and meaningless messages leak to nobody.",
  "every pair of executions that differ in one browser's texts, any number of users, any interleaving", "a statement about pairs of executions: no single run shows it",
  [CH+"::LiveviewComponent::update", CH+"::ChatServerState::handle", CM+"::main_loop"])

p("A WebSocket message is settled once it has arrived",
  "The iterator returns a message, or that the connection was closed, as soon as the last byte of it has arrived, and never before: what it returns, and what it writes in reply, does not depend on anything the client sends later, on whether it sends anything, or on whether it closes the connection, and all of that is left for the next call.",
  "every byte stream, every segmentation, every continuation, every history of calls",
  "a test fixes one stream and closes it or not; the claim is about all continuations of all streams, including those where one more byte changes what a length means",
  [FR+"::Frame::parse", MS+"::Message::next", WS+"::WebSocket::next"])

p("Chat: from one user's bytes to another user's bytes",
  "When a user's browser reports that user's actions as masked text frames holding the client script's JSON, everything the user has sent after somebody else entered appears, under the sender's name and in the order of sending, in what the other browser's script makes of the bytes the server has written to that other connection, pongs and all; unless one of the two connections is over.",
  "every fair execution with any number of users, every sequence of actions, every mask key, form of length and segmentation of each frame, every interleaving of the two writers",
  "crosses frame parsing, JSON, the component loop, the coordinator, the diff, the serialiser and the client script, under all schedules",
  [FR+"::Frame::parse", WS+"::WebSocket::next", CM+"::main_loop", CH+"::LiveviewComponent::update", CH+"::ChatServerState::handle", DF+"::diff", SE+"::OpSerializer", JS+"::ws.onmessage"])

p("A WebSocket client cannot make the server send more than it has sent itself",
  "What the WebSocket iterator writes on its own account (pongs and the close reply) is never more, in bytes, than what it has read from the client: reading a connection does not amplify traffic.",
  "every byte stream, segmentation, error schedule and number of calls",
  "the worst case is one length out of 2^64, reached through one of three length encodings and any fragmentation; no sample is likely to contain it",
  [FR+"::Frame::parse", FR+"::Frame::format_length", WS+"::WebSocket::next", MS+"::Message::next"])

p("What is on the page depends on the current view only, not on how it came about",
  "Two sessions, of the same component or of two different ones, with whatever histories of inputs: if their current views are the same, then the two browsers, having processed everything they were sent, show the same: the same tags, attributes, listeners and texts in the same order. In particular a page that was updated in place is like one freshly painted from the current view.",
  "every pair of components, states and histories, every pair of pages they are put on", "a statement about pairs of histories of any length; a test compares two of them",
  [DF+"::diff", DF+"::create_from_scratch", JS+"::ws.onmessage", CM+"::main_loop", CH+"::render"])

p("Routes that have no URL in common can be registered in any order",
  "Registering routes in another order changes nothing, for any request, as long as no two of them accept a common request. For two patterns this can be read off segment by segment: they accept a common URL if and only if they have the same length and at each position two equal texts, an integer text and an integer segment, or an arbitrary segment; and two neighbouring routes can be exchanged, whatever their handlers, if and only if they do not.",
  "every list of routes and permutation of it, every pair of patterns, every handler and request", "quantifies over all patterns, all URLs and all orders; one URL that matches both of two patterns is enough to make the order matter",
  [RO+"::Router::route", RO+"::Router::respond", MU+"::Match::does_match", LI+"::main", CH+"::main"])

p("A route is reachable unless a single earlier route covers it",
  "A route's handler is run for some request, unless its pattern matches nothing or one single route registered before it accepts everything the pattern accepts, segment by segment. Several earlier routes never hide a route together if none of them hides it alone.",
  "every list of earlier patterns, every pattern, every handler, every request", "that no union of patterns covers another one is a statement about infinitely many URLs and all sets of patterns",
  [RO+"::Router::route", RO+"::Router::respond", MU+"::Match::does_match", MU+"::Segment"])

p("Chat: what a page shows only grows",
  "Once a user of the chat has entered, whatever happens afterwards (other users, any bytes, delays, messages in any interleaving), the user's component is over, or it has the same name and id as before and shows all the messages it has shown before, in the same order, perhaps with others after them; so does the page in the browser, wherever the component was put in it.",
  "every reachable state of the application, every state reachable from it, every user that has entered, every page", "the past must be kept under every continuation of every run, with any number of users",
  [CH+"::LiveviewComponent::update", CH+"::LiveviewComponent::render", CM+"::main_loop", DF+"::diff"])

p("No two elements of the page have the same id",
  "Over a whole session, when the browser has processed all it was sent, no two elements of the page have the same id: the ids are those the page had, followed by those of the component's current view in document order. (The client script finds the element of an instruction by its id.)",
  "every component, every history, every page without numeric ids", "one misdirected instruction anywhere in a history would leave two elements with one id, and every later instruction would go astray",
  [DF+"::Element::diff", JS+"::ws.onmessage", CM+"::main_loop", CH+"::render"])

p("Chat: the name and id shown with a message tell who sent it",
  "All messages of one user of the chat bear the same name and id, and two messages that bear the same id are from the same user, whoever connects, leaves or sends in between.",
  "every reachable state of the application, every two accepted messages, any number of users", "ids are recycled; whether two users can ever be confused depends on the whole history of entering, sending and leaving",
  [CH+"::UserIdCreator", CH+"::ChatServerState", CH+"::LiveviewComponent", CH+"::drop"])

p("A written request is one request",
  "Writing a request puts one request line, one line per header and one empty line on the connection before the body, whatever the method, path and header values are: a header's value never turns into further headers or a further request.",
  "every request that can be built, every method, path, header names and values", "the value is usually chosen by someone else; tests use the values a friendly user would choose",
  [RQ+"::Request::write", RB+"::RequestBuilder", RQ+"::Method::write"])

p("Chat: a newcomer is shown nothing said before it entered",
  "Whoever enters the chat is shown messages accepted after it entered only, each at most as often as it was accepted, and those of the others in the order in which they were accepted.",
  "every two reachable states, one after the other, in the first of which the user has not entered; any number of users, any schedule", "what is shown depends on all deliveries on their way at the moment of entering, and on every one after it",
  [CH+"::ChatServerState", CH+"::LiveviewComponent", CH+"::render"])

p("Changeset::apply and the browser's script do the same",
  "Wherever the page shows a view, running an instruction (or a changeset) in the browser makes it show what Changeset::apply computes from that view; and where apply panics because an element does not exist, the script throws.",
  "every view with distinct ids, every instruction and changeset, every page", "two implementations, in two languages, of the same fourteen instructions: each is tested by itself, on its own examples",
  [AP+"::apply", JS+"::ws.onmessage", SE+"::InstructionSerializer"])
p("Chat: ids stay small",
  "The ids the chat has given out are exactly the numbers below the greatest number of users that have been registered at the same time: whoever comes and goes, an id is new only when all the earlier ones are taken, and no user ever sees an id of that number or more.",
  "every history of requests to the coordinator, with its map in any order; every run of the application, including connections that are killed", "needs the greatest number over a whole history, compared with every id given out in it",
  [CH+"::UserIdCreator", CH+"::get_id", CH+"::release_id", CH+"::ChatServerState"])
p("Interrupted system calls go unnoticed",
  "A read or write that the operating system interrupts changes nothing: whatever is interrupted, and how often, a request, a response, a body and a WebSocket frame are read as if it had not happened, and the same bytes are written.",
  "every stream of bytes in every segmentation with interruptions anywhere in it; every way the writes of a connection can be cut short, interrupted and fail", "an interruption can come before any system call; a test would have to produce one at each place",
  [FR+"::Frame::parse", RQ+"::Request::parse", RB+"::Response::parse", BD+"::Body::read"])
p("What was reported as sent is received, even if an earlier message failed",
  "When sending a message fails and sending works again afterwards, as the component loop relies on when it ignores the result of a send, the client receives every message reported as sent, in order, and none that nobody sent.",
  "every sequence of messages, every way the connection's writes are cut short, fail and recover", "the connection has to fail after part of a frame and then recover; what happens depends on the number of bytes that were taken",
  [SD+"::send_frame", CM+"::perform_diff", WS+"::send"])

p("The word size of the machine cannot be seen",
  "A server compiled for a machine with 32-bit words (the WebAssembly target that lunatic runs) and one compiled for 64-bit words do the same with the same bytes: the frame parser, Message::next, the WebSocket iterator, Request::parse, Response::parse, Body::into_string and the handlers of the list example give the same results, leave the same bytes unread and write the same bytes.",
  "every stream of bytes, segmentation and error; every pair of word sizes; every number of calls; every request", "lengths near 2^31 and beyond, on two machines",
  [FR+"::parse", MS+"::next", WS+"::next", RQ+"::parse", BD+"::into_string"])

p("A change that could not be sent is made up for by a later one",
  "When a changeset could not be sent (the component loop ignores the result of sending) and later ones can, the page shows the component's current render once the browser has processed what was sent.",
  "every component, history of messages and choice of the changesets that cannot be sent; every way in which the connection fails and recovers", "intermittent failures of a connection",
  [CM+"::perform_diff", CM+"::main_loop", MS+"::send"])

if __name__=="__main__":
    out=os.path.join(os.path.dirname(os.path.abspath(__file__)),"..","properties.jsonl")
    with open(out,"w") as f:
        for x in P: f.write(json.dumps(x,ensure_ascii=False)+"\n")
    print(len(P))
