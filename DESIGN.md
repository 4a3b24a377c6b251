# A Lean 4 model of puck-rs/puck

Source: `/repo` (puck, puck_liveview, examples). Model and proofs: `/verif/lean/Verif/`.

## Layout

| directory | contents |
|---|---|
| `Verif/Model/` | the model: one file per source file, each definition cites the file and lines it models |
| `Verif/Spec/`  | small independent specifications (RFC 6455 client codec, RFC 4648 decoder, HTTP reader, ASCII letter case, URL pattern relation, DOM picture of an element, ...); no definition in `Spec` calls a model function |
| `Verif/Lemmas/`| helper lemmas and invariants |
| `Verif/Props/` | the property theorems `Cxx_...` and, beside each, a non-vacuity `example` |

Theorem naming: `Cxx_<what>`; `Cxx_..._partial` proves part of the property (what is missing is in
the docstring and in MANIFEST.json); `Cxx_..._refuted` proves that the code violates the property as
stated, with a concrete witness.

## How the code is modelled

* **Bytes** are `List UInt8`; Rust `String` is Lean `String` (both are valid UTF-8 byte strings).
* **usize** width is a parameter `W` where the code casts to `usize` (`Frame::parse`); the project's
  configured target is wasm32 (`.cargo/config.toml`), so `W = 32` there. Everywhere else counters are
  unbounded `Nat` (ids, lengths), i.e. overflow of a 2^32 counter is not modelled.
* **Panics** (`unwrap`, `expect`, `unreachable!`, `todo!`, index out of bounds, capacity overflow) are an
  explicit outcome, never a totalised default.
* **Input streams** are lists of read events: each event is a (non-empty) block of bytes available to one
  `read` call, or an I/O error; the empty list is end of file. The list is the schedule chosen by the
  network; theorems quantify over it. `BufReader` is modelled with its internal buffer and capacity
  (read-ahead is therefore visible, and *is* lost when the reader is dropped).
  `ErrorKind::Interrupted` is left out of these streams; `Model/Interrupt`, `Model/InterruptFrame` and `Model/InterruptWrite` put it back, and C158 proves that leaving it out
  changes nothing except where `Frame::parse` uses a single `read` (ws/frame.rs:27 and :65), which reports it as an error, i.e. as a `fail` event. `take(n).read_to_end` offers all the remaining bytes to each
  `read` (the std of the pinned commit; a newer std grows its requests, which changes read-ahead into the `BufReader` but not the bytes returned).
* **Output streams** are byte sinks with an optional byte budget after which every write fails (crash point); C158 derives this view of `write_all` from a model of the single `write`s
  (short counts, interruptions, failures).
* **HashMap** is an association list with distinct keys; whenever the code iterates, the iteration order is
  an explicit parameter (a permutation chosen by the environment).
* **External crates** are parameters: `httparse` (header parser), `url::Url::parse`, `sha1` are arbitrary
  functions; theorems that need facts about them take an explicit contract as a hypothesis and an instance
  satisfying that contract is exhibited. `base64`, `byteorder`, `i32::from_str`, `usize::from_str`,
  `str::split`, `to_ascii_lowercase`, `HashMap`, `BufReader`, `Read::take/read_exact/read_to_end/read_until` are
  modelled by executable definitions (from their documented behaviour).
* **Browser**: `client/index.js` is modelled as an interpreter of instructions over a small DOM
  (elements, text nodes, attributes, listeners; `getElementById` is first in document order; exceptions abort
  the rest of the message). `Model/Live` adds event dispatch (targets and bubbling, one message per attached listener, whole messages in FIFO queues),
  `Model/Navigate` adds what a browser does by itself after an event (links, submission of forms; not the validation of fields),
  `Model/Field` adds form fields (the text shown against the `value` attribute, the dirty flag, `cloneNode` keeping the typed text; a change of the `type`
  attribute is not modelled). Elements with a behaviour of their own (`script`, `iframe`, `img`, custom elements, ...) are plain elements in the model: what inserting them
  makes a browser load or run is not modelled. The JSON text in between is modelled too: `Spec/Json.lean` is the grammar of RFC 8259 with what each
  text denotes, `Model/Json.lean` the writers (`serde_json::to_string` of the changeset, `JSON.stringify` of the event), a
  reader proved equivalent to the grammar (`parse_iff`), and serde's derived `Deserialize` for `ClientMessage`. Trusted here:
  that `serde_json` and the browser's `JSON` implement RFC 8259 (their number and depth limits are not modelled; no number occurs in the messages).
* **Lunatic**: a process is a state machine with a FIFO mailbox. `request` is an atomic call in `Model/Chat.lean`; `Model/ChatFine.lean` has it as a message,
  a waiting requester and a reply with its own tag, and C104 proves that the two are the same for everybody. Schedules are
  arbitrary interleavings of the processes' steps (`NetStep`, the chat's `Step`), so theorems about all reachable
  states hold for every schedule. Where two processes write to one TCP stream, the writes interleave at the granularity of `write_all` (C82).
* **HTML in the browser**: `Spec/Html.lean` is a fragment of the WHATWG tokenizer and tree builder (tags, attributes, text; no
  character references, no optional end tags), `Spec/Url.lean` the resolution of relative references, `Spec/Form.lean` the form encoding.
* **examples/**: both example programs are modelled (`Model/ListApp.lean`, `Model/ListNet.lean`, `Model/Chat.lean`, `Model/ChatFine.lean`) with the library model underneath.

### Not modelled

`bind` failing; the memory limit of a process (so an allocation below `isize::MAX` always succeeds); `Debug`/`Display` of errors; `malvolio`'s own HTML types beyond what
`into_element` reads from them (tag, attributes, text); `dom/element/orchestrator.rs`, which no `mod` line includes (it is not compiled); the
test modules; user code inside `Component::new/update/render` and route handlers is an arbitrary (total, pure) function; drop order.
The growth of a `Vec` or `String` beyond `isize::MAX` bytes is modelled as a panic for the payload of a frame only (and there as exact growth; std's
doubling can panic earlier if more than `isize::MAX / 2` bytes really arrive in a frame announcing at least `2^W` bytes, see `readPayload`; this concerns C06, C08 and C09
on targets with a `usize` below 64 bits only), not for the head buffer, `into_bytes` and `into_string`. The iteration order of a `HashMap` is one function of its content per
environment: equal maps are iterated in the same order within one run.

## Trusted base

Lean's kernel; the axioms `propext`, `Classical.choice`, `Quot.sound` (at most; no others); the reading of the Rust/JS source by the
author of the model (the code was not run); the modelling assumptions listed above. 

Three modules check the trusted reading on literals (checks, not proofs; no claim in MANIFEST.json rests on them): `Validation/RepoTests` runs the
repository's own unit tests on the model (the two tests the repository ignores as broken fail there too), `Validation/Autobahn` replays cases of the
Autobahn suite whose results for a puck echo server are recorded in `/repo/autobahn/server-results.json` (the echo program itself is not in the repository and is
reconstructed) and finds the recorded successes and failures, and `Validation/Standards` runs the
specifications (RFC 6455 frames, base64, SHA-1, HTTP heads, MIME parameters, HTML tokens, JSON, form encoding) on the examples the standards print.

## Plan per property

(see the table in the second half of this file; kept current as theorems are added)

| id | property | approach |
|---|---|---|
| C01 | A sent WebSocket message is decoded unchanged by any RFC 6455 client | Model format/send_frame as byte writers; prove Spec client decoder (RFC 6455) inverts it. |
| C02 | A history of sends reaches the wire in order, and a failed write leaves only a prefix | Fold of send over a budgeted sink; induction over the message list. |
| C03 | Sent frames use the minimal length encoding | Arithmetic on the length thresholds; refute at 65535, prove everywhere else. |
| C04 | A well-formed client frame is decoded to exactly what the client sent | Chunked BufReader model; parse of spec-encoded frame by cases on length form. |
| C05 | Decoding a frame does not depend on how TCP segments the bytes | Refute with a two-read split; prove the exact set of harmful split offsets. |
| C06 | A frame is never invented: success means the bytes really encode that frame | Case analysis of parse over arbitrary event lists, using the `avail` abstraction of a reader; exactly: backed by the bytes iff the announced length fits in a usize. |
| C07 | Unmasked client payloads are always refused | Corollary of parse's case analysis. |
| C08 | A truncated frame is never delivered | Same; W-bit truncation of the length gives a refutation at 2^32; the exact result for every announced length. |
| C09 | No peer input can crash the frame parser | Refute with announced length 2^31 (W=32) / 2^63 (W=64); prove exact panic condition. |
| C10 | Frames sent back to back are all delivered | Refute with both frames in one read; prove delivery when reads are aligned with frames. Exact: every successful parse takes whole reads and at least the bytes of the frame, so if all frames are delivered none took more (counting). |
| C11 | An empty masked frame is consumed completely | Refute; prove the exact leftover and exactly when the frame is consumed completely. |
| C12 | Header bits and opcodes are decoded per RFC 6455 and no opcode is refused by the frame parser | decide over the 256-value table lifted to a theorem; bit lemmas. `C12_format`: what is written for any frame reads back as that frame. |
| C13 | Fragmented messages are reassembled exactly | Induction over the fragment list on the aligned-stream model. |
| C14 | Control frames may be interleaved with fragments | Refute for every interleaved control frame. |
| C15 | Text messages are always the exact valid UTF-8 the client sent | Model String::from_utf8 by Lean's UTF-8 validity; invariants of next. |
| C16 | A close frame ends the message stream wherever it appears | Induction over fragments. |
| C17 | Client messages round-trip through the server's decoder | Combination of 4 and next. |
| C18 | Every ping is answered by exactly one pong with the same payload before it is delivered | Case analysis of the socket step. |
| C19 | A closed socket stays closed and silent | Induction over calls. |
| C20 | At most one close frame is sent per connection | Invariant over histories; refute with make_copy. |
| C21 | A lost connection is eventually reported as closed | Refute: induction shows ClientError forever. Exactly: every call takes something from the stream (`message_drains`), so by strong induction on what is left the three final behaviours are the only ones. |
| C22 | Reading never writes anything but pongs and one close reply | Case analysis. `C22_any`/`C20_any` (Props/Broken): no hypothesis on failures; a frame cut short does not decode (decoding is monotone) and nothing is written after it. |
| C23 | No data is sent after the close frame | Refute with a concrete history; partial: exact bytes. |
| C24 | The upgrade decision is exactly the documented header test | Model to_ascii_lowercase/contains; refute name case-insensitivity. |
| C25 | The handshake reply proves receipt of the client's key | Exact bytes for every key and digest function. |
| C26 | The accept header is decodable base64 of the digest | Base64 decoder spec; induction in steps of three. |
| C27 | A refused upgrade gets exactly one 400 response and no WebSocket | Case analysis. |
| C28 | A body never yields more than its declared length, under any read pattern | Invariant bytes_read <= length over read histories. |
| C29 | Reading a body to the end yields exactly the declared prefix | Induction over read_to_end with arbitrary buffer sizes. |
| C30 | String bodies round-trip | Corollary. |
| C31 | The request head ends at the first blank line and the body starts right after it | read_until/head loop closed form via `avail`; spec = first CRLFCRLF. |
| C32 | A connection that ends before the blank line yields Ok(None) and never a request | Same. |
| C33 | Request acceptance and the request URL follow a fixed decision table | Case analysis over arbitrary httparse/url results. |
| C34 | Duplicate headers: the last one wins, and every stored value is the exact UTF-8 text received | Induction over headers. |
| C35 | Request interpretation does not depend on hash-map iteration order | Permutation argument with unique keys up to case; refute otherwise. Exact condition: an order that yields a chosen entry first, for each spelling. |
| C36 | Methods survive being written and read back | Refute for HEAD; partial. |
| C37 | A written request parses back to the same request | Contract on httparse/url with an exhibited instance; composition. |
| C38 | Writing a request preserves its query string | Refute. |
| C39 | Response bytes are deterministic | Uniqueness of sorted permutations. |
| C40 | An HTTP client recovers status, reason, headers and body from the encoded response | Independent reader in Spec; induction over headers. |
| C41 | Header values cannot inject additional headers | Refute; partial for CR/LF-free values. `C41_exact_partial`: the number of line ends in the head, by additivity of counting CR LF (no line end straddles two parts). |
| C42 | A parsed response's body is bounded by its Content-Length | Refute. `C42_exact_partial`: the body as a function of the Content-Type. |
| C43 | An encoded response parses back to the same response | Contract + composition. |
| C44 | Builders produce exactly what was configured | Fold over builder calls. |
| C45 | take_body hands over the body exactly once | Direct. |
| C46 | MIME parameters are serialised so that they can be parsed back | Spec parser of parameters; induction over characters. |
| C47 | The canned error responses are complete, well-formed responses | Evaluate; sink model. |
| C48 | URL matching is exact segment-by-segment matching | Induction over segments vs Forall2 spec. |
| C49 | Integer segments accept exactly the 32-bit integers | Digit-string value lemma. |
| C50 | The first matching route handles the request, exactly once | Induction over routes. |
| C51 | Sending the router to another process does not change routing | Function table with left inverse. |
| C52 | Every connection is answered | Refute; partial: outcome table. |
| C53 | Connections do not influence each other | Map over accept events. |
| C54 | Generated element ids are unique and dense | Mutual induction over nodes. |
| C55 | into_element preserves tag, attributes, text, listeners and children as documented | Mutual induction over nodes. |
| C56 | An unchanged view produces no instructions | Mutual induction. |
| C57 | Applying the changeset to the old view gives the new view | Refute; partial for id-aligned trees by induction with document contexts. `C57_views_exact_partial`: the condition that is both necessary and sufficient for two views of a component (sufficiency through `Safe`; necessity by following marked elements through the changeset, `Lemmas/Contents*.lean`). |
| C58 | Keyed children are matched by key | Refute (reorder, insert); exactly the removals work (`C58_exact_partial`). |
| C59 | Diffing never crashes the server | Refute; exact condition. |
| C60 | Attribute updates are exact and order-independent | Finite-map reasoning. |
| C61 | Instructions survive the wire format | Split lemma; refute with '+'; injectivity when the first parts have none. |
| C62 | The first paint shows exactly the component's view | Induction over trees on the DOM interpreter. Exactness: an invariant of whatever the client builds (names in lower case, accepted, no `+`) read back through what is shown. |
| C63 | Updates keep the browser in step with the component | Refute (several ways); partial for safe pairs. Exactly, for unkeyed views of any structure, tags included where the browser copies children faithfully into the new tag (`Spec/Follows`): a message without exceptions shows the new view iff the change is `Followable`; by simulation of the DOM by labelled trees (`Lemmas/Paint*`) and an induction over the changeset with a zipper. |
| C64 | The server's record of the page is always the component's latest render | Invariant over histories. |
| C65 | Only events for currently rendered listeners reach the component | Case analysis of step. |
| C66 | One changeset per accepted update, in order | Trace induction. |
| C67 | Closing the connection stops the component | Induction. |
| C68 | The component loop always starts with its identity and never hits an unreachable branch | Transition system with FIFO mailbox; invariant over schedules. |
| C69 | The WebSocket reader stops when the connection is closed | Refute. |
| C70 | Rendering to HTML keeps distinct views distinct | Refute. |
| C71 | Chat: no two connected users share an id | Invariant over histories. |
| C72 | Chat: a message reaches every other registered user exactly once | Handle model. |
| C73 | Chat: no schedule of users and browser events crashes the server or a component | Global transition system invariant. |
| C74 | List: items are kept in submission order | Induction. |
| C75 | List: LastN(n) returns the last n items | Refute. |
| C76 | List: /read/<integer> never crashes the handler | Refute. |
| C77 | A request's body is exactly the Content-Length bytes after the head | BufReader model from the head on; decimal spec for the length. |
| C78 | A request without Content-Length has an empty body | Refute for every continuation; partial when nothing follows. |
| C79 | Responses are framed: a client can tell where one ends | Refute (two responses = one longer response); partial with an application-set Content-Length; exact condition against the rules of RFC 9112 6.3 (`Spec/Framing.lean` `SplitResponse`). |
| C80 | Only a complete RFC 6455 handshake is upgraded | Refute: only three headers matter; partial: these three are required. |
| C81 | A connection that ends without a close frame also stops the component | Refute by an invariant over schedules; partial with a close frame; exactly (`C81_exact_partial`): the results the reader gets are successive results of the socket (`got_chain`), so in a fair execution the loop ends iff a close frame comes. |
| C82 | Concurrent sends on one connection do not mix | Interleavings of the two processes' write lists; refute; partial when they do not overlap. |
| C83 | An event on a shown element reaches exactly its listener | DOM listeners of the shown page against the loop's table. |
| C84 | Over a whole session the browser shows the component's current render | Induction over the session, C62 + C63. For components with a fixed layout an equivalence: all histories are shown iff every reachable update can be followed (C103); likewise, with messages processed without exceptions, for components whose structure and tags may change (from C63's exact form); a component that takes a text away refutes the claim. |
| C85 | Chat: the browser always shows the current view | Instance of C84: all chat views are gentle; refute with +. Exact: invariant over all reachable states with the field cut at its first +. |
| C86 | List: a read page shows exactly the messages submitted before it | Server history with the list process; HTML reader. |
| C87 | List: every POST /submit is answered | Outcome table of the handler. |
| C88 | List: the stored item is the text the user typed | Form encoding spec; refute; exact condition. |
| C89 | Chat: all users see the same messages in the same order | Refute; partial: own in order, others' in the coordinator's order; exact (`Spec/ChatOrder`): the coordinator's order with own messages moved forward, and when two users agree. |
| C90 | Chat: a user who disconnects is removed and only that user | Invariant over histories. |
| C91 | Rendered HTML is read by a browser as the element that was rendered | Reader of Spec/Html over the renderer's text; refute for attributes; exactly (`C91_exact_partial`, trees without special characters): iff no element has an attribute. |
| C92 | A changeset arrives in the browser as the instructions that were sent | Writer's text denotes the list (RFC 8259 grammar); determinism of the grammar. |
| C93 | An event arrives at the server as the browser sent it | JSON.stringify's text through the reader and serde's derive. |
| C94 | The server acts on exactly the texts that are JSON events | Reader equivalent to the grammar; exact set of accepted texts. |
| C95 | From component to page and back over the bytes of the connection | Compose C01, C92, C84 and C93, C17, C65. |
| C96 | The liveview page and script are served complete and with the right type | Router model over the mounted routes; C40's reader. |
| C97 | Wherever the page is mounted as documented, the browser finds its script and WebSocket | URL resolution spec; refute; partial for directory URLs. Exact (all patterns): where the browser looks for script and socket. |
| C98 | Chat: the page, its script and its WebSocket are served | Instance of the router model on the chat's routes; on connections that break, `C98_broken`. |
| C99 | Nothing sent to a component waits for ever | Infinite executions of the process network, weak fairness per process, progress measure; fair executions are shown to exist. |
| C100 | A client's messages are handled and its close frame ends the component | C99 together with the message decoder. |
| C101 | A serialised changeset can be read back as its owned analogue | Derived Serialize/Deserialize over the JSON model; exact condition, refuted for first paints. |
| C102 | The element builder yields exactly what was set | Fold over setter calls. |
| C103 | Between renders of the same structure the browser is kept in step exactly when it can follow the changes | Enough: simulation where muted listeners are allowed wherever the changeset sets them again. Necessary: every instruction of such a changeset only lets the page fade (no new elements), so what an early instruction destroys stays destroyed. |
| C104 | Requests to the chat coordinator behave as if they took no time | Forward simulation from the model with messages to the model with atomic requests; a request takes effect when the coordinator takes it; a killed requester is killed right after its request. |
| C105 | In a fair execution every chat message arrives, every click is acted on, nobody waits for ever | Infinite executions of the model with messages under weak fairness; one lemma per process (it takes everything in its mailbox), then induction on the number of messages still missing, with C104's order invariant; fair executions are constructed by a round-robin scheduler. |
| C106 | Whatever part of the bytes has arrived, the browser shows a view the component had | The client's frame decoder is monotone in the bytes, texts in the frames; every beginning of what the loop sends is all it sends on a beginning of its mailbox; then C84 / C104 on that beginning. `C106_processes` says it for every reachable state of the three processes of `manage`. |
| C107 | What a client sends after the handshake request reaches the WebSocket | Invariant of the `BufReader` of `Request::parse` (`Lemmas/Ahead`): it has taken exactly the blocks up to the one in which the head ends. Holds if a read ends with the head (`_partial`), refuted otherwise. |
| C108 | A whole liveview session from the first byte | Composition: head on the wire (C33, contract of httparse), routes (C98), handshake (C25, C27), the socket's input (C107), messages under fairness (C100); `C108_page` adds what the client's page shows (C106). |
| C109 | A whole HTTP exchange, from the client's bytes to the client's bytes | Composition in any server history (C53): request (C31, C33 / C37), routing (C50), response (C39, C40 / C43). |
| C110 | The list application shows what was submitted, over bytes | `listConns`: connections as bytes; a simulation by `listHistory` (C86) over the requests that reach a handler. |
| C111 | Reading the body of a received request as text never crashes the handler | `with_capacity` of the declared length as an explicit panic; composed with C77 over the bytes of the request. False above `isize::MAX` (`_refuted`), exact condition (`_partial`). |
| C112 | Message::next decodes the next message from any reader that can be cloned | `Model/MessageClone`: the loop with fuel and a parameter for what `Clone` means; shared clones refine `Message.next`, copied ones never get past the first frame (`_refuted`). |
| C113 | An event is acted on as the view in which the user triggered it says | `Model/Live`: the page, the loop, and the two directions as queues, with the state shown when each event happened as history. Invariant: the changesets under way lead from the shown state to the current one. Exact condition, refuted by a switch clicked twice. |
| C114 | No event is lost | The same invariant with equality; refuted by a view whose next view has another listener. |
| C115 | An event runs the listeners of the element and of those around it, innermost first | Paths in the view correspond to paths in the DOM; induction over the events of one dispatch; refuted by a listener that depends on the state; exactly (Props/Bubbling): the updates done are those wanted iff each listener at its turn still asks for the same. |
| C116 | A field shows the value the component's view gives it | `Model/Field`: the client on nodes that also hold what the user typed (HTML dirty value). Erasing what was typed gives `clientOp`; instructions between views of the same structure keep ids and typed texts (skeletons). Exact: last typed, else the view's value; refuted by a button that clears a field. |
| C117 | The view builder yields exactly what was given to it | Fold over the calls, then C55. |
| C118 | Each instruction changes exactly the element it names | Trees as tables (`Spec/Rows`: one row per element, in document order, children by id); contexts (`plug`) locate the element; one theorem per kind of instruction. |
| C119 | A conforming client accepts every frame the server sends | `Spec/Conform`: `Takes`/`Accepts`, a client that objects to every violation. Per message an iff with a plain condition (`Sendable`); histories by C12's account of what is written. Refuted for long pings/pongs and 65535-byte payloads. |
| C120 | What the WebSocket iterator reports is what RFC 6455 says | `Spec/Conform`: `Receives`, a reference receiver as a relation on client frames (proved total and functional). Induction over the reported verdicts. Refuted for every illegal frame that carries a meaning, and for fragmented control frames. `Spec/Lenient`: `Reports`, a second receiver with the rules puck applies; for any frames the iterator reports exactly what it says, hence agrees with RFC 6455 iff the two receivers do. |
| C121 | The body a handler reads is the body the client framed | `Spec/Framing`: RFC 9112 6.3 as an inductive relation, chunked coding as an encoder. Request::parse on a good head (C37) followed by any bytes; proved with Content-Length, refuted in the other cases. |
| C122 | A changeset holds what the change calls for and nothing else | `Spec/Changes`: an inductive relation lists what calls for each instruction, over the pairs of elements at the same position (`Compared`), and a size of views. Proved by recursion over `diff`; the size also for keyed trees with distinct keys, and refuted with repeated keys. |
| C123 | Chat: what is sent is what the fields showed at the click | `Model/Typing` (the page with the typed texts of `Model/Field` and the two queues of `Model/Live`; each event carries the page it happened in, as history), `Spec/Typing` (`ShowsField`). Invariant with four stages (nothing painted, form for the name, registration under way, chat page); the changesets of the chat are computed (`Lemmas/ChatDiffs`) and run on the two forms of the page (`Lemmas/ChatForms`). |
| C124 | A new keyed child is inserted at its place | `Spec/ChangesAny`: which pairs of elements are compared (`Matched`, by key or by position), which instructions each pair leads to (`LeadsTo`), and when an insertion names the right neighbour (`RightPlace`). Proved by recursion over `diff`; gives C122 for any two trees too. |
| C125 | Acting on a view does not lead away from the page | `Model/Navigate`: what a browser does by itself after a click or Enter (activation, submission of the form around, links), as the script never prevents it; a visit is a page with the pages left behind. `Spec/Navigate`: what a view must not contain. Exact, from the invariant of C113; refuted with a form. |
| C126 | Sending a response reports its outcome | `Stream.respond` over `Response.encode` and a sink that may break after any number of bytes; from the description of `encode` used for C39. C27_broken has the same for `Stream::upgrade`, which crashes instead. |
| C127 | Writing a request or response uses up its body and nothing else | The request (response) that `Request.write` (`Response.encode`) leaves behind, compared with the one with an empty body on every sink. |
| C128 | Writing a request reports its outcome | `Request.write` on every sink, from the specification of `Body.copyTo`, as C126. |
| C129 | What is framed is waited for, and nothing else | A call *answers* (Spec/Waiting) if its result is the same for every continuation of the stream and the continuation is left untouched; proved from "a read of a stream with something pending does not look at what follows" (Lemmas/Waiting), through the head loop, `read_to_end` and `copy`. |
| C130 | A client that has sent its request is not waited on for more | False without Content-Length; exactly when reading a received body answers: iff an error has arrived or the length is declared and has arrived. |
| C131 | The list application is linearizable | Model/ListNet: a process per connection (fresh, waiting for the list process, replied, done), the mailbox of the list process, one step at a time. Invariant: a log of the requests handled; each process is where the log says, each reply is what the log so far gives; the log keeps to real time. |
| C132 | Concurrent clients of the list application agree on the list | From C131 through C40 (the client reads the response back) and the bytes-to-request theorems (C109, C110); texts of an order are determined, beginnings have beginnings. |
| C133 | Every client of the list application is served | Infinite histories with weak fairness (Spec/ListHistory): a waiting process moves up in the mailbox with every step of the list process. |
| C134 | Every request sent on a connection is answered | False: the process of a connection ends after the first request. Exactly the bytes of the first answer are sent, whatever follows the first head (from C109's parts). |
| C135 | The answer to a HEAD request has no body | False: nothing looks at the method; applications that route by URL send the same bytes for HEAD as for GET. |
| C136 | Every header added to a response is sent | False for repeated names; from C44 and C40: the fields sent are exactly the last value per name. |
| C137 | A client cannot make the server hold more than a fixed amount | False: headers and messages of every size are accepted; the read-ahead beyond the head is below the BufReader's capacity (an invariant of the head loop). |
| C138 | What the chat knows of a user is what that user did | `Spec/ChatScript.lean` says what a sequence of browser messages amounts to, without mentioning the component; an invariant of the executions of `Model/ChatFine.lean`, carried through the simulation by `Model/Chat.lean`, says that the component is at a prefix of it. |
| C139 | The chat log holds exactly what its users sent | The same invariant with a ghost list of authors, which only grows. |
| C140 | Whatever a user sends is shown to everybody who is there | C138/C139 with the fairness of C105: the mailbox is emptied up to any point; what was authored after the recipient registered is in the part of the log that C105 delivers. |
| C141 | A response that breaks off is never taken for a response | The head loop's specification, as for requests (C32). |
| C142 | A request whose sending failed can be sent again | False: `io::copy` has read a block that was not written. Exactly what becomes of the request, by induction on the body's source; a counterexample. |
| C143 | What people type never becomes part of a page's structure | A vocabulary of tags, attributes and listeners; every instruction of a changeset stays within it (mutual induction over the diff), every branch of the client keeps the page within it (induction over the tree), lifted to the loop and to all chat executions. |
| C144 | Chat: what a user types and does not send is seen by nobody else | Two courses of events (`ChatAct`, shown by `chatStep_iff` to be exactly the steps of the application) that differ in the texts of one browser; a relation between the two states, kept by every step (induction over the courses, with the invariant of C73) |
| C145 | A WebSocket message is settled once it has arrived | The iterator on `a` against the iterator on `a ++ more` for every continuation; by induction over the reads of each loop, frames, fragments and calls (`Lemmas/WsWaiting`); refuted for a 32-bit `usize` by a frame that announces `2^32 + 5` bytes |
| C146 | Chat: from one user's bytes to another user's bytes | Composition: the iterator on the frames (C17), the JSON (C93), the chat under fairness (C140), the serialiser and the merge of the two writers (C94) and the client script; `Lemmas/ChatLogged` exhibits an execution that meets the hypotheses |
| C147 | A WebSocket client cannot make the server send more than it has sent itself | Byte accounting through every read loop (`Lemmas/Account`), the least cost of a frame is superadditive, induction over fragments and calls; refuted at a payload of 65535 bytes; factor 32769/32768 proved for everything |
| C148 | What is on the page depends on the current view only, not on how it came about | `Element.ShownAs` determines the page up to `Dom.Same` (structural induction), then C84/C85 on both histories; refuted with a label that is switched off |
| C149 | Routes that have no URL in common can be registered in any order | Induction over `List.Perm`; overlap of patterns as a table on segments (`Spec/Patterns`), shown equivalent to a common URL by constructing one |
| C150 | A route is reachable unless a single earlier route covers it | A witness URL with texts longer than every fixed text of the earlier patterns (x…x, 0…0): a pattern that accepts it covers the whole pattern |
| C151 | Chat: what a page shows only grows | One-step invariant over `ChatStep` (a component is over or its shown messages extend the earlier ones), induction over the second run; the page by the exact page theorem of C85 in both states |
| C152 | No two elements of the page have the same id | `ShownAs` determines the list of ids on the page (structural induction); C84/C85 give `ShownAs`; refutation by a component whose views regroup five divs |
| C153 | Chat: the name and id shown with a message tell who sent it | Ghost list of authors along a run (`Spec/ChatAuthors`), invariant: an author is over or still has the name and id of its messages (from C151), ids of running components are distinct; refutation by a run in which a second user takes over name and id of the first |
| C154 | A written request is one request | The number of line ends in the head that `Request.write` puts on the connection, counted by `lineEnds` (as for C41); refutation: for any two requests there is a header value with which one request is written as the bytes of both |
| C155 | Chat: a newcomer is shown nothing said before it entered | Two reachable states of the chat; invariant along the run between them: the log only grows and every registration made meanwhile remembers a place in the log not before the old end (`LogAfter`); with C89's account of what a user is shown; on the page by C85 |
| C156 | Changeset::apply and the browser's script do the same | `applyOp` on trees against `clientOp` on the page, for one instruction: simulation both ways at the element it names (`sim_tree`, `back_tree`), the rest of the tree unchanged; induction over the changeset; for component views from the exact conditions of C57 and C63 |
| C157 | Chat: ids stay small | The coordinator over any history (`Serves`, as C72): the ids in use are those of the registered users, ids in use and ids to be recycled are together the numbers below the counter, and a new one is made only when none is to be recycled; then the number of users registered equals the counter. In the application: every step changes the coordinator as one request, a reordering of its map or not at all (`ServerMove`) |
| C158 | Interrupted system calls go unnoticed | The readers once more on streams with interruptions (`Model/Interrupt`, `Model/InterruptFrame`: std's loops repeat, single reads return them); simulation by the stream without them (`calm`), function by function; for frames, what has been consumed when an interruption is returned (`Went`, `Tail`); writing: `write_all` as a loop of `write`s with short counts, interruptions and failures, refined to the `Sink` of the other modules |
| C159 | What was reported as sent is received, even if an earlier message failed | A history of sends on the writer of `Model/InterruptWrite`, which may fail and recover; what can be left on the connection as an inductive relation (`LeftBy`), both ways; decoding with the RFC 6455 decoder of C01; refutation: a frame broken off after its header swallows the next |
| C160 | The word size of the machine cannot be seen | The model with two word sizes `W ≤ W'`: for frames, equality of parser and rest when no announced length reaches `2^(W-1)`, and the exact condition when one does; for the message loop and any number of iterator calls, by induction over the frames that come along (`AfterFrames`); for HTTP, the exact effect of a length that does not fit (it is forgotten); refuted by two streams. |
| C161 | A change that could not be sent is made up for by a later one | The loop's messages over a writer that fails and recovers (`WSink`), nothing of the lost messages being written: the page is exactly the one the others lead to (by C159 and C92); it shows the current render if the view after the lost stretch is the one before (by the session invariant of C84, twice); where only the texts of childless elements change, the exact condition, by following tree by tree what instructions computed for one text do to another (`runs_overlay`); refuted by two labels that change one after the other. |
