# Formal model of shpool in Lean 4

Source under study: `/repo` (shell-pool/shpool, pinned commit), read as text only.
Model and proofs: `/verif/lean/Verif/**`.  Properties: `properties.jsonl`.  Claim status: `MANIFEST.json`.

## 1. Trusted base

* Lean 4.33.0's kernel.  Every theorem depends at most on `propext`, `Classical.choice` and `Quot.sound`
  (checked with `#print axioms`, `tools/check_axioms.sh`; see section 5).  No axioms of our own, no `sorry`, no `native_decide`,
  no `bv_decide`, no `unsafe`/`implemented_by`.
* The reading of the Rust code.  Nothing is extracted mechanically: each Lean definition carries a comment with the
  file and lines it models, and any simplification is named there.  The code is never run.
* Behaviour assumed of things outside the repo, always as an explicit parameter or an explicit modelling comment:
  a Unix stream socket is a reliable ordered byte stream cut at arbitrary points; `read_exact`/`write_all` loop until
  done; a mutex admits one holder; a bounded channel is a FIFO; `HashMap` is a finite map; `Instant` is monotone;
  the terminal-emulation crates (`shpool_vt100`, `vterm`) are an uninterpreted fold over the output bytes;
  MessagePack encoding (`rmp_serde`) is an uninterpreted injective function; TOML parsing is uninterpreted.

## 2. Layout

For each area there are up to three kinds of modules:

* `Verif/<Area>/Model.lean`  - the code, function by function, with citations.
* `Verif/<Area>/Spec.lean`   - (where needed) an independent specification that does not use the model's helpers.
* `Verif/<Area>/Lemmas.lean` - helper lemmas.
* `Verif/<Area>/Props.lean`  - only the property theorems (named `Cnn_...`), each with an `example` showing its
  hypotheses are met by a concrete non-trivial case, and negations with concrete witnesses where the code violates
  the property.

Naming: a theorem `Cnn_..._partial` proves a restricted form (restriction stated in its comment);
`Cnn_..._false` / `Cnn_not_...` proves that the unrestricted property fails for the code as written.

## 3. Plan per property

| id | model | proof |
|----|-------|-------|
| C01 | `Chunk.encode` / `readInto` on byte lists | round trip, all payloads and suffixes |
| C02 | pull reader over a list of segments, `read_exact` loop | segment reader equals flat reader; induction over frames |
| C03 | same `readInto` | case analysis, exact consumption |
| C04 | `Chunk.encode` | corollary of C01: prefix-freeness, injectivity of concatenation |
| C05 | emitters of the shell->client thread with payload sizes | false: witness for switch/motd frames above 16384; `_partial` for data, heartbeat, exit, restore |
| C06 | `versionOrd` on strings | compare of keys; total preorder laws |
| C07 | node-vector trie with cursors | refinement to an association list; invariant by induction over inserts |
| C08, C09 | lexer, parser, validity check | round trip from an independent grammar; rejection characterisation, `_partial` where the lexer is too lax (witness) |
| C10 | control code table | finite table against ASCII arithmetic; x/y swap is a witness of falsity, `_partial` for the rest |
| C11, C12 | binding engine = two trie cursors | soundness by invariant (cursor = typed suffix); completeness false in general (witness), `_partial` from idle |
| C13-C17 | keystroke filter loop and `snip_buf` | invariant per byte over the buffer; falsity witnesses for the off-by-one and detach cases |
| C18-C23 | shell->client thread as a labelled transition system | trace invariants by induction over events |
| C24 | client pipe threads as LTS | invariant over interleavings |
| C25-C27 | `duration.rs` on char lists with u64 semantics | arithmetic; falsity witness for overflow and junk acceptance |
| C28-C30 | `template.rs` on char lists | parse/unparse, exact grammar |
| C31 | `etc_environment.rs` on char lists | per line function |
| C32, C33 | config record merge; manager state machine | field-wise lemma; history induction |
| C34, C35 | watcher state machine | timed trace invariant; falsity witness for the lossy re-watch, `_partial` |
| C36, C37 | name checks and path join | component-wise containment; equality of predicates |
| C38-C40 | env vector building, `Command::envs` last-wins | lookup characterisation; witness where TERM can be overridden |
| C41, C42 | decision functions | case analysis |
| C43 | vars map | refinement by history induction |
| C44-C50 | daemon LTS: attach/kill/detach/list threads, table lock, per-session lock | invariants over all interleavings; falsity witnesses (races), `_partial`; C48 also over fair infinite executions |
| C51-C54 | events bus LTS: publishers, channel, wake pipe, sink, subscribers | trace invariants; falsity witness for C54 |
| C55-C57 | reaper LTS | heap minimality, generation invariant; falsity witness; for C57 also fair infinite executions with two ranks (registrations not yet received, deadlines not yet dealt with) |
| C58 | latch | induction |
| C59, C60 | attach client loop | induction over replies |
| C61 | handle_conn decision | case analysis |
| C62 | list output | list lemma |
| C63 | backoff sums; pid-file lock LTS | arithmetic + invariant |
| C64, C65, C66, C67, C68, C69, C70 | small state machines / functions | case analysis and induction |
| C71, C72 | variables the client sends; list output | list lemmas; falsity witness for line feeds |
| C73, C74 | file list of the configuration manager | case analysis; falsity witnesses |
| C75 | shell->client thread with a changing configuration | reachable panic (witness); invariant otherwise |
| C76 | rendezvous of requester and thread, all timeouts | wedged states are reachable and permanent; recovery under timely acks, also over fair infinite executions (the rank is the phase of the thread) |
| C77 | process table with reuse of numbers | witness; invariant while not reaped |
| C78, C81, C82 | injected scripts, shell quoting specification | string induction; falsity witnesses |
| C79 | waiting loop against a start-up time | exact bound |
| C80 | clock readings | witness; arithmetic |
| C83 | descriptor loop | exact characterisation |
| C63, C84, C85 | LTS of daemons and clients on the control socket, events socket and pid file | invariants over all interleavings; falsity witnesses |
| C88, C90 | terminal flags as bit vectors; attach process as a recursive function over rounds | bitwise specification of raw mode; induction over rounds; falsity witnesses |
| C89 | LTS of terminal, signal thread, main thread, sessions | invariant with a ghost bit for overtaking; falsity witness |
| C91, C92 | LTS of the session table (as C44–C50), its events | invariants relative to the state listed in; absorbing bad state; falsity witnesses |
| C93, C95–C98 | starting a shell as a function of request, configuration, environment and what the system answers | case analysis, list lemmas on paths and environments; falsity witnesses |
| C94 | status words of waitpid, frame, client; LTS as for C107 | arithmetic on status words; composition with the round trip of C02; invariant over undisturbed runs; falsity witness |
| C87, C99, C100 | permission bits, umask, LTS of concurrent requests making directories and files | bit lemmas, invariants over all interleavings; falsity witnesses |
| C101 | text of forward.env against a specification of a fragment of the shell language | string lemmas; falsity witness |
| C102, C103 | MessagePack and the codecs of all messages | combinators proved lawful (round trip with any suffix), composed; reading lemmas for maps with unknown, missing and reordered fields; falsity witnesses |
| C104 | LTS of the session table with pending hook calls | per-request trace invariant; uniqueness invariant for taking turns; falsity witnesses |
| C105 | table of descriptors, lowest free number | characterisation of the parsed variable; induction over what is opened; falsity witness |
| C106 | user database lookup with a fixed buffer, composed with starting a shell | case analysis; falsity witnesses |
| C107–C110 | LTS of the threads of one attach request, its client, shell and other requests | invariants with history; a rank that internal steps can always decrease; for C107 also liveness over infinite fair executions (`Verif/Util/Fair.lean`): a measure that comes to a rest, and a step that fairness then forces; falsity witnesses |
| C111–C113 | printer of serde_json, the output of list, var and events | round trip with an independent reader of JSON; falsity witnesses |
| C114 | client prompt and daemon time-out with a clock | exact characterization by cases; falsity witness |
| C115 | LTS of the signal handlers and the signal thread | invariants; possibility of ending, and ending in fair infinite executions (rank: files left); falsity witness |
| C116, C117 | LTS of the read-write lock of the configuration, with the programs of all its users | exact characterization of the states from which all can finish; invariants with history; falsity witnesses |
| C118, C119 | file systems with links; resolution of paths and what the watcher watches | lemmas on resolution (idempotent, independent of what is elsewhere); falsity witnesses |
| C120, C121 | LTS of the main thread, the watcher and forks | invariants with a free lock or a living worker; frozen states; falsity witnesses |
| C122–C125 | function from arguments and what is found to what a command does | case analysis over all commands, exact characterizations; falsity witnesses |
| C126 | client LTS of C24 with a terminal that parses private modes | from C24; falsity witness |
| C127 | messenger with the debouncer made at start, histories of requests with both readings of the mode | induction over histories; falsity witnesses |
| C128 | event bus LTS of C51 | invariant within an iteration of the loop; falsity witnesses |
| C129–C131 | timed functions of reading and writing, LTS of the accept loop | induction over the client's actions; falsity witnesses |
| C132, C133 | the LTSs of C18 and C24, the codec of C01 and the input filter of C13 composed over two byte streams | composed invariants (frames delivered = handled + in hand + on the wire), induction over steps; liveness by draining, and in every fair execution by a decreasing measure |
| C134 | functions for fork, setsid, open, dup2 on processes, `daemonize` composed of them | symbolic execution for all processes and answers, invariant over later actions; falsity witness |
| C135 | the transition system of the session table, with the name each client asked for read off the history | invariant over all runs, frame theorem for steps about other names, agreement of two histories preserved by steps about one name |
| C136 | the transition system of the shell-to-client thread, counting changes of the terminal's size | invariant since the attach, induction over the history; falsity witness |
| C137 | the transition system of the session table, the reaper's kill may fail | invariant over orderly histories; what is lost stays lost (induction); falsity witnesses |
| C138–C141 | the relaying loop of the message pager, the thread waiting for the pager, the guard that kills it: LTS of one display | invariants over all interleavings; liveness over infinite fair executions; falsity witnesses |
| C142 | the loop waiting for a new shell to run the marker command, with a clock | induction over the rounds of the loop |
| C143–C144 | the transition system of the session table with the places that have handles of a client's connection | invariants over all interleavings; counting; what is left behind stays (induction); falsity witness |
| C145 | every handler and thread as a program over all mutexes of the daemon, any number of them side by side | one order for all locks (per program), invariant over all interleavings, induction over the order; falsity witness |
| C146 | the same, infinite executions | strong fairness, induction over the order of the locks and the length of programs |
| C147 | the scripts as small programs, spelled out to the text of the source; a meaning for each form of command used; user's hooks and commands as arbitrary functions | two shells side by side, one with and one without the script, induction over the commands typed; falsity witnesses |
| C148 | the log file as bytes, each process with its own position in it; start (truncation), write at the position, end | induction over the steps while one process has the file; what a second opener does to it, in any state; falsity witnesses |
| C149 | filters, the mapping of requested levels and of `-v`, where messages go | a list of the levels seen with each request as specification; induction over the steps |
| C150 | what the marker commands print, the echo of typed text, a transcript of the terminal while the script is typed | characters that are not in the marker cut every text, so that only the user's own texts can have it; UTF-8 keeps ASCII texts apart; then C20 |
| C151 | the background client's program (ask, close, detach by name) on top of the daemon's transition system | witness for the late detach; invariant that nobody else works on the name since the request was taken up; liveness of the serving thread by rank |
| C152 | the forced client's loop (ask, detach by name once, ask again, give up) on top of the daemon's transition system | witness for the client overtaken; counting refusals; invariant that only the first holder can hold the name as long as nobody else asks for it |
| C153 | the list request taken apart (lock, one look per session, answer) on top of the daemon's transition system | witness with two clients leaving; the table is locked, so statuses can only go from attached to free: pairs of lines decide; counting releases |
| C154 | any number of clients (main thread, signal thread, terminal) and the daemon's sessions with owner and size | witnesses for refused, former and switching clients; invariant on who has a signal to handle; simulation of size and terminal when requests come from owners |
| C155 | one pager: `display`, size listener with the bare descriptor number, resize requests, table of descriptors with lowest-number allocation | witnesses; invariant while the terminal is open; counterfactual order of closing |
| C156 | the same with time limits of requests | witness and invariant of the stuck listener; a path to success otherwise; numbering of requests |
| C157 | one pager: `display` with the bare descriptor number, the thread that waits with a clone of the handle, table of descriptors | witnesses; invariant until the first closing; count of strange reads and writes; counterfactual without the clone |
| C158 | one session: its reader with the bare number, dropping the session, requests with references to its channels, table of descriptors | witnesses, one for every number of reads; invariant until it is dropped; count afterwards; liveness under weak fairness |
| C159 | The two accept loops with a limit of descriptors (Verif/Exhaust): accept takes a number first | Potential that only failed accepts raise; demand of numbers as an invariant gives the exact condition; order by history invariant; fairness for recovery |
| C160 | The ttl reaper (Verif/Reaper): its map of names, its heap, its channel | Families of histories for the negation; sublist invariant between heap and registrations; fairness for the deadlines |
| C161 | Terminal (raw and former settings, line being edited), the thread reading standard input, the switch (Verif/Switch) | Conservation invariant over histories; order by pairwise invariant; counterexample histories for special keys |
| C162 | The threads serving one request (Verif/Bidi), what the client has sent and what the shell got | Counterexample run with a heartbeat; invariant of the rest of the request otherwise; the same for a reader that reads to the end |
| C163 | The threads of the client (Verif/Pipe), with signals: which thread takes one, its handler, what an interrupted call does | Counterexample run of two resizes; invariants over runs; fair liveness for the size told; the same for a client that repeats an interrupted poll |
| C164 | Where the client of each session runs, attaches made inside sessions, and the output relayed between them (Verif/Nest) | Counterexample runs; exact condition of one attach; invariant over runs without force from rooted places; the same for a daemon that follows the clients |
| C165 | What fork, exec, Rust's start and std's Command do with signal settings, and the steps from whoever starts the daemon to the shell (Verif/Disp) | Exact characterisation by computation over all settings; counterexamples; consequences for kill and exit status |
| C166 | The operations on the restore engine in the model of the shell-to-client thread (Verif/S2C), and the two sizes a new session is given | Invariant over runs relating the last size given to the requests; counterexample; exact condition |
| C167 | The terminal's input as a queue of lines taken by the shell or by the program in the foreground; the lines the daemon types (Verif/StartCmd) | Invariant on where the marker's command is; counterexamples; all causes; weak fairness; repaired order |
| C168 | Which processes have the master sides of which terminals, from the loop that closes descriptors (Verif/Fds, Verif/Hangup) | Invariants; counterexamples; exact inheritance; weak fairness (newest session first) |
| C169 | The agent link and the variables file of one session name, and the order in which an attach makes them and starts the shell (Verif/SessDir) | Invariants over runs; counterexamples; repaired order |
| C170 | Attach requests that show a message before they stream, detach requests, forced attaches (Verif/Reading, on the session table) | Fair executions; counterexample for ever; repaired |
| C171 | Times in the list as what an arbitrary clock shows at the instants recorded in the session table (Verif/Clock) | Witnesses; exactly when the list is refused and exactly which clocks keep the order |
| C172 | Requests by name as steps over a changing session table, with the lock of the pager's slot (Verif/Message) | Witnesses; what is known of a request in each phase, as an invariant over all interleavings |
| C173 | The owner's handle, the shutdown pipe and the end of the thread around the event bus of Verif/Events (Verif/BusClose) | Invariant over all interleavings; fair executions by a rank; a publisher that never stops as witness |
| C86 | path functions | disjointness by directories; falsity witness |

Properties that cannot be expressed at all: none so far.  What is only partly expressible (real-time behaviour, kernel
scheduling fairness, terminal emulation) is named with each theorem.

## 4. What is modelled, and how

One entry per area, copied from the head of its model.  Everything not listed is not modelled (see the end of the section).

### Activation: Model of socket activation

Sources: `/repo/libshpool/src/daemon/systemd.rs` 26-54 (`activation_socket`), `/repo/libshpool/src/daemon/mod.rs` 73-97 and 113-118
(its use in `run`), `/repo/libshpool/src/lib.rs` 385-440 and `/repo/libshpool/src/config.rs` 56-96 (what the daemon has opened by then).

A service manager that activates the daemon through a socket passes the socket as descriptor 3, with `LISTEN_FDS=1` and
`LISTEN_PID` the process it is meant for.  The model is the table of descriptors of the daemon, with what each of them is and who
uses it.  Descriptors of the daemon's own are opened at the lowest free number, as by the kernel.  The environment variable is a
list of characters (`none`: not set, or not UTF-8); binding the daemon's own path is not part of this model (see the model of
starting daemons).

### Attach: Model of the attach process: its terminal and its exit status

Sources: `/repo/libshpool/src/tty.rs` 82-140, `/repo/libshpool/src/attach.rs` 101-239, `/repo/libshpool/src/protocol.rs` 250-260 and
446-519, `/repo/libshpool/src/lib.rs` 454-488.

What happens between entering and leaving the piping is in `Verif/Pipe`; here only how it ends (`PipeEnd`).  The flag words of the
terminal are 32 bit vectors with the Linux values of the flags; the remaining settings (control characters, speeds) are one opaque
number.  Setting the attributes of the terminal succeeds (an error leaves it as it was).

### Background: Model of attaching in the background

Source: `/repo/libshpool/src/attach.rs` 140-226 (`attach_resolved`, without `--force`), on top of the daemon of `Verif/Server/Model.lean`.

Any number of clients attach in the background (`shpool attach -b`), next to any number of other requests.  The attach request of client `t` is
served by the daemon's thread `t`.  Once the client has read the reply to its attach request it closes that connection and asks the daemon, on
a new one, to detach the session of that *name*; then it ends.  The reply is written while the request holds the session (server.rs 295-299), and
can be read any time after that.  What the daemon does is any step of its model, except that a background client's request is for the name it
asked for.  A background client killed on its way just makes no further step.

### Bidi: Model of serving an attached client: the threads of one request

Source: `/repo/libshpool/src/daemon/shell.rs` 651-802 (`bidi_stream`), 804-953 (`spawn_client_to_shell`), 955-1022
(`spawn_heartbeat`), 1024-1063 (`spawn_supervisor`), 1069-1085 (`action_detach`), 316-444 and 520-545 (what the shell-to-client
thread does with the messages of this request and when the pty hangs up); `/repo/libshpool/src/daemon/server.rs` 333-387 (what
`handle_attach` makes of the result).

A transition system of one request: the thread that serves it (`Main`), the three threads it starts, the shell-to-client thread of the
session, the mutex around the channels to that thread, the connection to the client, the pty and the shell.  Other requests can ask the
shell-to-client thread to drop the client (`Who.ext`).

Simplifications:
* Time is not modelled: a wait with a timeout may time out at any moment (but see `Sup.waiting`).
* One read from the client is one opaque number, which is handed to the pty by one write, or is a detach key sequence (what exactly is
  written is in `Verif/Input`).
* What the shell writes is not modelled (`Verif/S2C`), except that writing it to a client that is gone makes the shell-to-client thread
  forget the client (`dropConn`).  Session variables and sizes are left out too.
* Shutting down a socket succeeds.  Starting threads succeeds.

### BusClose: Model of closing the event bus

Source: `/repo/libshpool/src/daemon/events.rs` 75-113 (the bus and the handle that owns its thread), 120-147 (`publish`, with a thread that is
gone), 165-186 (dropping the handle), 199-214 (the guard of the socket file), 219-297 and 318-335 (how the thread returns);
`/repo/libshpool/src/daemon/mod.rs` 73-116 (whoever starts the bus drops the handle at the end, also when the start of the daemon fails
after it).

The loop of the thread is that of `Verif/Events` (`base`).  Added are: the shutdown pipe, the clones of the bus (when the last is gone
the wake pipe is at its end), panics, what happens after the thread's function has returned, and the owner, who writes to the shutdown
pipe and waits for the thread.

Simplifications:
* The iteration in which the thread finds the wake pipe at its end is one step (`eof`).
* After the socket file has been removed, the pipes, the channel and the listener are closed in one step (`exit`).
* A wake byte written when nobody reads it any more (EPIPE, which is only logged) is counted in `base` like any other.
* Another daemon that takes the socket file's place is not here (`Verif/Startup`).

### CfgLock: Model of the lock around the configuration

Sources: `/repo/libshpool/src/config.rs` 36-106 (`Manager`: the lock, the reload, `get`); the places that call `get`:
`/repo/libshpool/src/daemon/server.rs` 267, 308, 525, 574-577, 915-920, 937, 1009, 1079-1098, 1144-1163, 1185-1289;
`/repo/libshpool/src/daemon/show_motd.rs` 63-66, 104-110, 128-143; `/repo/libshpool/src/daemon/shell.rs` 286-291, 818-825;
`/repo/libshpool/src/session_restore.rs` 27-38, 82-84, 115-117, 163-190.

A transition system: threads that take and give back read guards of the configuration, and the watcher thread that takes the write guard
when a configuration file has changed.  `std::sync::RwLock` is modelled from its documentation and its implementation for Linux: a reader
waits as long as a writer holds the lock or waits for it; it makes no difference whether the reader has a guard already ("this might
deadlock", says the documentation).  Guards live as the rules of the Rust reference (2024 edition) say: a `let config = …get()` until the
end of the function, a temporary until the end of its statement, in a condition of an `if` until the end of the condition.

Simplifications:
* What threads do apart from taking and giving back guards is one step, `work`, that is always possible: other locks are in
  `Verif/Server`, waiting for clients in `Verif/Bidi`.
* A thread may fail whenever it works; its guards are then dropped.
* The pieces of work of the output thread of a session are tasks of their own.

### Chunk: Model of the chunk (frame) wire format

Source: `/repo/libshpool/src/protocol.rs` lines 84-126 (`Chunk::write_to`, `Chunk::read_into`) and
`/repo/shpool-protocol/src/lib.rs` lines 384-432 (`ChunkKind`, `TryFrom<u8>`, `Chunk`).

Bytes are `UInt8`, byte strings are `List UInt8`.  Rust `assert!` failures and I/O errors are explicit
error values.

### Client: Model of the client subcommands and of the daemon's connection handler

Sources: `/repo/libshpool/src/list.rs` 22-58, `kill.rs` 22-55, `detach.rs` 22-59, `common.rs` 76-89, `attach.rs` 101-239,
`daemon/server.rs` 166-239 and 1338-1358.

### Clock: Model of the times in the list

Sources: `/repo/libshpool/src/daemon/server.rs` 772-807 (`handle_list`), 1177 (`started_at`); `/repo/libshpool/src/daemon/shell.rs` 76-87.

The transition system of the session table records the instants at which a session was started, last connected and last disconnected.
The daemon records what the system clock shows at these instants, and the clock can be set: here it is any function from instants to
nanoseconds since 1970.  `list` is the answer to a list request with the times as they are sent, or `none` if the request fails (then there
is no answer, and `shpool list` ends with an error).  Simplified: the clock shows the same all through one step of the transition system, so
a session is started and first connected at the same time.

### Config: Model of configuration loading

Sources: `/repo/libshpool/src/config.rs` 56-167 (`Manager`), 180-300 (`Config`), 302-338 (`Config::merge`).

Simplifications: what the TOML parser makes of a text is a parameter (a file is unreadable, malformed or parsed to a `Config`);
hash tables are association lists; key bindings are (binding, action) texts; numbers are naturals.

### Conns: Model of who holds the connection of an attached client

Sources: `/repo/libshpool/src/daemon/server.rs` 242-397 (`handle_attach`), 400-571 (`select_shell_desc`), 1132-1183 (`spawn_subshell`),
625-662 (`handle_detach`); `/repo/libshpool/src/daemon/shell.rs` 157-172 (`SessionInner`), 174-200, 316-400 (the messages of the
shell-to-client thread), 614-626 (a failed write), 655-800 (`bidi_stream`).

The transition system of the session table, with the handles (`UnixStream` and its clones) of the connection of every attach request.
A handle is in one of three places: in the hands of the request (the argument of `handle_attach`, later the variables of `bidi_stream`
and of its threads), in the session (`client_stream` of `SessionInner`) or in the shell-to-client thread of the session.  A connection is
open until its last handle is dropped or one is shut down.  The client has no time limit for reading (protocol.rs 196-203), so it
waits as long as its connection is open.

Simplifications: several clones at one place count as one.  The number of a request is the number of its connection.  A shutdown succeeds.
The reply "busy" is written.  A request whose disconnect message was taken but acknowledged late ends at once (its threads may first have to
wait for the thread to get to the shutdown, which is a step here).

### Disp: Model of the signal settings a session starts with

Sources: `/repo/libshpool/src/daemon/signals.rs` 33-51 (`Handler::spawn`), `/repo/libshpool/src/daemonize.rs` 80-95 (the client starts the
daemon), 149-203 and 242-260 (`daemonize`, `become_child`), `/repo/libshpool/src/daemon/mod.rs` 49-107 (`run`),
`/repo/libshpool/src/daemon/server.rs` 1005-1019 (fork and exec of the shell) and 1043-1076 (`child_watcher`),
`/repo/libshpool/src/daemon/shell.rs` 128-152 (`kill`), `/repo/libshpool/src/attach.rs` 431-437 (the client's handler).

What a process does with each signal, and which signals it blocks, from whoever starts the daemon to the shell.  Of the system and of
Rust's library: `fork` copies the settings; `exec` turns handlers into the default and keeps what is ignored and the mask; a Rust program
ignores SIGPIPE from its start, and installs handlers for SIGSEGV and SIGBUS where the default is set; `Command::spawn` and
`Command::exec` set SIGPIPE to the default and empty the mask before the exec; if SIGCHLD is ignored, `waitpid` fails once the child has
ended.

Simplification: the steps of starting are taken as a list, one after the other; threads are left out (the mask of the thread that
forks is emptied by `Command::exec` whatever it was).

### Duration: Model of the ttl duration parser

Source: `/repo/libshpool/src/duration.rs` 22-79.  Durations are whole seconds (`Duration::from_secs`).

Arithmetic is on `u64`.  An overflowing `*` or `+=` panics in builds with overflow checks and wraps modulo `2^64`
otherwise; both are modelled, selected by `Build`.

### EndToEnd: Model of a client and a daemon connected by a socket

Sources: those of the areas S2C (`/repo/libshpool/src/daemon/shell.rs` 263-649), Pipe (`/repo/libshpool/src/protocol.rs` 250-519),
Chunk (`/repo/libshpool/src/protocol.rs` 84-126) and Input (`/repo/libshpool/src/daemon/shell.rs` 806-953), put together: one client,
the thread that writes the shell's output to it, the thread that reads its input, and the two directions of the socket between them
as strings of bytes.

A step is a step of the shell-to-client thread (frames it delivers to this client's connection are encoded and appended to the bytes
on their way), a step of the client's process, the client's reading of one frame from the socket, or one `read` of the input thread.
The socket hands over bytes in order and in pieces of any size; it loses nothing.

Simplifications: those of the areas.  The input thread reads from the start on (in the code from the attach on; what the client sends
before waits in the socket); how it is stopped is in the area Bidi.  Time is left to the areas.

### Env: Model of session names, directories and environments

Sources: `/repo/libshpool/src/daemon/server.rs` 249-253 (name check), 574-622 (ssh-auth-sock link and forward.env), 958-962 (start
directory), 1185-1300 (environment and paths); `/repo/libshpool/src/attach.rs` 140-157 (name check), 254-285 (header);
`/repo/shpool-protocol/src/lib.rs` 253-255 (`local_env_get`).

Strings are `List Char`; OS strings that are not UTF-8 are not modelled.

### EtcEnv: Model of the `/etc/environment` parser

Source: `/repo/libshpool/src/daemon/etc_environment.rs` 13-73.

### Events: Model of the event bus

Source: `/repo/libshpool/src/daemon/events.rs`.

A labelled transition system: publishers, connecting subscribers and the sink thread take steps in any order.  The
behaviour of each subscriber's socket (short writes, would-block, errors, hang-ups) is given by the step labels, so it is
arbitrary.  The channel is a FIFO list; the wake pipe is the number of unread bytes in it.

### Exhaust: Model of the two accept loops when descriptors run out

Sources: `/repo/libshpool/src/daemon/server.rs` 140-165 (`Server::serve`); `/repo/libshpool/src/daemon/events.rs` 250-275 and 294-382
(the loop of the sink: `poll`, the accept loop, emptying the wake pipe).

The process can have `limit` descriptors open at a time.  `accept(2)` first takes a free number and only then looks for a connection
(Linux, `__sys_accept4_file`), so it fails at once with EMFILE if there is none, whether or not a connection waits, and it keeps the number
while it waits for one.  Neither loop does anything about the error but write a line to the log.

Simplifications: descriptors are only counted.  What else the daemon does with descriptors (terminals, clones of connections, files, the
threads of connections closing them) are steps of the outside.  Subscribers that are slow to read (which also wake the sink) are left out,
as are the other errors of `accept`, and the limit of threads (Verif/Slow, C131).

### ExitNotify: Model of the exit notifier

Source: `/repo/libshpool/src/daemon/exit_notify.rs` 19-62.  Each step happens while the mutex is held, except `expire`, which is
the timer of a parked thread.  `parking_lot`'s condition variable has no spurious wake-ups, and its timed wait reports
`timed_out` exactly when the thread was not woken by a notification; both are trusted.

### Fds: Model of the file descriptors given to a new process

Sources: `/repo/libshpool/src/daemon/server.rs` 1011-1021 (a shell), `/repo/libshpool/src/daemon/pager.rs` 143-150 (a pager),
`/repo/libshpool/src/consts.rs` (`STDERR_FD` is 2).

The upper bound of the loop is `SysconfVar::OPEN_MAX as i32`: the number of the enumerator, which the nix crate takes from libc
(`_SC_OPEN_MAX`), not the limit it stands for.  The number is a parameter here; on Linux it is 4 (bits/confname.h).

### Force: Model of forced attaches

Source: `/repo/libshpool/src/attach.rs` 163-204 (the loop of `attach_resolved`, with `--force`), on top of the daemon of `Verif/Server/Model.lean`.

Any number of clients attach with `--force`, next to any number of other requests.  A client makes one attach request after the other, each
served by a thread of the daemon of its own.  When one is refused because the session is busy the client asks, once, for the session of that
*name* to be detached, sleeps, and tries again, unless it has tried too often.  What the daemon does is any step of its model, except that a
client's requests are for the name it wants.  A client killed on its way, or whose request ends with an error, just makes no further step.
How long the client sleeps is left out.

### Fork: Model of the configuration's watcher in a daemon that forks

Sources: `/repo/libshpool/src/lib.rs` 442-466 (`run`: the configuration is loaded and watched before the daemon runs),
`/repo/libshpool/src/config.rs` 57-103 (`Manager::new`, `get`), `/repo/libshpool/src/config_watcher.rs` 127-200, 317-342 and 376-409 (the
worker thread), `/repo/libshpool/src/daemon/mod.rs` 49-84 (`run`), `/repo/libshpool/src/daemonize.rs` 149-203 and 242-260 (`daemonize`,
`become_child`), `/repo/libshpool/src/daemon/server.rs` 113-124 (first look at the configuration).

A transition system of the one process that becomes the daemon: its main thread, the worker thread of the watcher, and somebody who edits
the configuration file.  `fork` copies a process with the calling thread only, so the child has neither the worker nor the thread of the
crate `notify`, but it has a copy of the lock, in the state it was in.

Simplifications: there is one configuration file, it exists, and its contents are numbered by edits; `good` says which contents can be
parsed.  The two threads of the watcher are one.  Reading the configuration under a read guard is one step.  The mutex of the log file is
left out: at the level of messages such a daemon logs, the worker logs only while it holds the lock of the configuration (config.rs
78-88).  The parents of the forks only wait and exit; they are left out.

### Handshake: Model of the rendezvous between requesters and the shell-to-client thread

Source: `/repo/libshpool/src/daemon/server.rs` 1108-1118 (all six channels are `bounded(0)`: a send succeeds only by meeting a
receive), `/repo/libshpool/src/daemon/shell.rs` 302-305, 316-444 (the thread's side: receive a message, work, send the
acknowledgement, blocking, without a timeout) and the requesters:

* `bidi_stream` (shell.rs 680-698, 749-769), `action_detach` (1071-1084), `spawn_heartbeat` (977-1018), the resize and
  detach session messages (server.rs 855-871, 886-896): the message is sent with a timeout of 300ms and then the
  acknowledgement is awaited with a timeout of 300ms;
* `handle_detach` (server.rs 633-642): both without a timeout.

All of them hold the mutex around `ShellToClientCtl` from before the send until after the acknowledgement, so there is at
most one requester at a time (`req`).

Requests are numbered in the order in which they take the mutex; the acknowledgement carries the number of the message it
answers (ghost information, used by the specification).  Time is not modelled: a timeout may happen whenever a requester
with a timeout waits.  What the thread does with a message, and how long it takes, is `Verif/S2C` and the label `work`.

### Hangup: Model of who has the terminals of sessions open

Sources: `/repo/libshpool/src/daemon/server.rs` 1011-1021 (a shell is started: fork, the loop that closes descriptors, exec), 357-364 and 752-763
(a session is removed from the table and dropped, which closes its terminal), `ttl_reaper.rs` 120, `/repo/libshpool/src/daemon/pager.rs` 138-149 (a pager is started
the same way, at a terminal of its own), `/repo/libshpool/src/daemon/signals.rs` 71 (the daemon ends, which closes everything it has).

A terminal has two sides.  The daemon has the master side, the shell and what is run from it the other side.  When nobody has the master
side any more the system hangs the terminal up: what runs at it is sent SIGHUP and ends unless it ignores that.  A process that is forked
has what its parent has, and exec keeps what is not marked close-on-exec.  Which descriptors a new shell gets is taken from the model of the loop
(`Verif/Fds`).

Simplifications: of the daemon's descriptors only the master sides are here.  Whether the crate `shpool_pty` (not in the repository) opens them
close-on-exec is a parameter; in the child it closes the new terminal's own master side.  Terminals are numbered in the order they are made;
pagers' terminals and sessions' terminals are not told apart.  A hang-up reaches all that runs at the terminal (the shell passes it on to its jobs).

### Hooks: Model of the calls to the hooks of the wrapping binary

Sources: `/repo/libshpool/src/hooks.rs`; the calls at `/repo/libshpool/src/daemon/server.rs` 353 (`on_shell_disconnect`), 386
(`on_client_disconnect`), 474 (`on_reattach`), 511 (`on_busy`), 521 (`on_new_session`).

The transition system of the session table, with the calls: `on_reattach` and `on_busy` are made while holding the table's lock, so
they belong to the step that selects the session; the others are steps of their own, between two steps of their thread, and any
other thread may come first.  A hook that returns an error is only logged, so the result of a call is part of the label and changes
nothing.  A hook that does not return is not modelled, nor is a reply of "busy" that cannot be written (509, then `on_busy` is not
called).

### Inject: Model of the setup injected into a new shell

Sources: `/repo/libshpool/src/daemon/shell_inject.rs` 57-142 and 204-218, `/repo/libshpool/src/daemon/server.rs` 1078-1106 and
1306-1308, `/repo/libshpool/src/exe.rs`, `/repo/libshpool/src/consts.rs` 40.

Strings are lists of characters.  The texts of the scripts are copied from the source.  What the shell makes of the script is
the subject of `ShellPrompt`; here there are only two fragments of shell syntax in the specification: splitting a command line at
blanks, and reading text inside double quotes.

### Input: Model of the client→shell keystroke filter

Source: `/repo/libshpool/src/daemon/shell.rs` 806-953 (thread body) and 1125-1177 (`snip_buf`).

The keybinding engine is a parameter `tr` (a transition function), instantiated with `Bindings.transition` in the
properties.  Writes to the pty are collected in order; write errors (which end the thread) are not modelled.

### Intr: Model of signals arriving at the attach process

Sources: `/repo/libshpool/src/attach.rs` 427-499 (`SignalHandler`: the signal SIGWINCH, sent when the terminal is resized, is handled),
`/repo/libshpool/src/protocol.rs` 279-288 and 320-330 (the two calls of `poll`, whose errors end the thread).

This layer is put on top of the client's main loop (`Verif/Pipe`).  A signal is sent to the process, and the kernel chooses the thread
that is interrupted by it.  It is not sent to a thread that blocks it, and a thread blocks it while it runs the handler for it.
POSIX allows any other thread; Linux takes the main thread unless that blocks the signal (`complete_signal` in kernel/signal.c).  A
signal that is sent again before it was taken by a thread is merged with the first.

The handler is installed by the crate signal-hook, with `SA_RESTART`: it raises a flag and wakes the thread that is reading from the
iterator (attach.rs 441-455).  An interrupted `read` or `write` is restarted, an interrupted sleep is continued by the standard
library; an interrupted `poll` is never restarted by the kernel (signal(7)) and returns the error EINTR.

Simplifications: whether a thread that is past its check of the result is waiting in `poll` or doing something else is chosen by
the label.  A resize request (attach.rs 461-499) is two steps: taking the flag, and reading the terminal's size and telling it; that
it is handled is in `Verif/Winch` and `Verif/Sizes`.  The size of the terminal is the number of times it was changed.  The process
exits when the main thread is done (a switch to another session is not followed).

### Json: Model of the output meant for programs

Sources: `/repo/libshpool/src/list.rs` 37-41 (`shpool list --json`), `/repo/libshpool/src/var.rs` 25-50 (`shpool var list`, `shpool
var get`), `/repo/shpool-protocol/src/lib.rs` 268-312 (the fields of a list of sessions), `/repo/libshpool/src/events.rs` 18-30
(`shpool events`), `/repo/libshpool/src/daemon/events.rs` 54-66, 479-494 (the text of an event).

The formatter of `serde_json` (version 1.0.149 in `Cargo.lock`) is a third-party crate; it is modelled from its documentation:
two blanks of indentation, `": "` after a key, empty lists and objects in one piece, the characters `"`, `\` and those below U+0020
escaped and nothing else, objects made by `json!({})` sorted by key (the crate is built without `preserve_order`; `Cargo.lock` lists
no `indexmap` for it).  Texts are lists of characters.

### Keybindings: Model of keybinding specs and of the matching engine

Source: `/repo/libshpool/src/daemon/keybindings.rs` 26-479.  Strings are `List Char`; the error text is reduced to the
kind of error.

### Kill: Model of killing a session's shell

Source: `/repo/libshpool/src/daemon/shell.rs` 124-151 (`Session::kill`), with the pager's variant
`/repo/libshpool/src/daemon/pager.rs` 352-387 (`PagerProcGuard`).

Processes: the kernel's table maps a process number to the process that has it now (`none`: free).  A shell that exits stays
in the table (a zombie, signals to it succeed without effect) until the daemon's `waitpid` thread reaps it; then its number is
free and may be given to an unrelated process.  Process numbers are never zero or negative here.

### Launch: Model of waiting for a freshly launched daemon

Source: `/repo/libshpool/src/daemonize.rs` 89-119 (`maybe_launch_daemon`).  The race of clients and daemons on the files is in
`Verif/Startup`.

### LetGo: Model of how an automatically started daemon leaves what launched it

Sources: `/repo/libshpool/src/daemonize.rs` 72-89 (the command that is launched), 149-203 (`daemonize`), 205-232
(`redirect_std_fds_to_null`), 242-260 (`become_child`).

A process has numbers (its own, its group's, its session's), perhaps a controlling terminal, a working directory and descriptors.  The
system calls are modelled from their manual pages: fork(2) copies everything but the number; a new number is none that is the number of a
process, a group or a session; setsid(2) fails for the leader of a group; open(2) takes the lowest free descriptor, and a leader of a
session without a controlling terminal gets the terminal it opens; execve(2) closes the descriptors that are marked.  The run-time system
of Rust opens /dev/null for those of the first three descriptors that are closed when a program starts.

Simplifications: of the pid file only its descriptor is here (its locking is in the area Launch); the parents of the two forks only wait
and exit.  What the process opens between its start and `daemonize` (the log file, the watcher of the configuration) is a list of opens.

### Listing: Model of a list request while clients come and go

Source: `/repo/libshpool/src/daemon/server.rs` 772-807 (`handle_list`).

`Server.list` takes the list as a function of one state.  Here the request is taken apart: it locks the table, looks at the sessions one
after the other (`try_lock` of a session's own lock tells whether somebody is attached), and unlocks the table when the answer has been
written.  The daemon's other threads (the transition system of the session table) take any steps in between that do not need the lock of
the table.  Requests to list wait for each other on that lock, so at most one is at work.  Left out: the errors for times before 1970 (see Verif/Clock), and
how long writing the answer takes (see the model of slow clients).  That the `try_lock` holds the session's lock for an instant is not seen
by anyone: others take a session's lock only with the table locked (429, 563).

### Locks: Model of the locks of the daemon and of the order in which its threads take them

Sources: `/repo/libshpool/src/daemon/server.rs` 240-400 (`handle_attach`), 402-572 (`select_shell_desc`), 624-662 (`handle_detach`),
684-735 (`handle_get_vars`, `handle_modify_var`), 737-811 (`handle_kill`, `handle_list`), 812-900 (session messages), 1042-1077;
`/repo/libshpool/src/daemon/shell.rs` 66-155 (`SessionLifecycle`, `Session::kill`), 550-575 (the end of the output thread), 655-803
(`bidi_stream`), 806-1064 (its three threads), 1071-1085 (`action_detach`); `/repo/libshpool/src/daemon/pager.rs` 99-330; `/repo/libshpool/src/daemon/show_motd.rs` 85-126, 171-195;
`/repo/libshpool/src/daemon/ttl_reaper.rs` 36-126; `/repo/libshpool/src/daemon/exit_notify.rs` 19-61.

Every handler and every thread is written down as a program that says, branch by branch, in which order it takes and gives back locks and
which threads it joins.  A transition system runs any number of such programs next to each other.  `Verif/Server` has the table of
sessions with one lock for it; here all the mutexes of the daemon appear, and what the table holds is left open: which session a name
leads to, and which way a branch goes, is a choice.

Simplifications:
* What a thread does apart from locks is `work`, which comes to an end, or `idle`, which may last for ever: waiting for a client, for a user,
  for the shell, for something to do.  `work` includes waiting for the output thread of a session and for the pager, nearly always with a
  time limit, and writing answers to clients; how long that may take is the matter of `Verif/Slow`, `Verif/Bidi` and `Verif/Handshake`.
* The lock around the configuration is in `Verif/CfgLock`.  The locks of `test_hooks.rs` (not in release builds) and of the writer of the
  log (taken and given back within one call) are left out.
* A thread with a loop begins its program again.  Threads that an attach starts exist from the beginning; they may run before the attach
  gets there.  The sessions that a request names, and those the reaper has to do with, are given by a list.
* `parking_lot` mutexes are not poisoned; a thread that panics is not modelled.

### Logs: The log: which messages are written, where they go, and what becomes of a log file that several processes open

Models `libshpool/src/lib.rs` 341-359 (`LogWriterBuilder`), 386-416 (the filter by the count of `-v`, the log file made with
`File::create`), `libshpool/src/daemon/server.rs` 663-684 (`handle_set_log_level`) and `shpool-protocol/src/lib.rs` 107-117
(`LogLevel`).  One log file is looked at, and any number of `shpool` processes, daemons and clients, that come and go; each of
them has been given that file with `--log-file` or has not.  Processes given another file do not matter to this one and are
left out.

A process opens its log file once, when it starts, with `File::create`: the file is emptied, and the process writes from
position 0 on, each write going to where its own last one ended (the file is not opened for appending).  A write beyond the
end of the file leaves bytes of value 0 in between, one before the end writes over what is there.

Simplified: a message is the text `tracing_subscriber` makes of it, a whole line; it is written with one `write_all` while the
lock of the log file is held (lib.rs 351), so it is one step here.  Writes that fail (a full disk) are left out.  Changing the
level (`modify` on the reload handle) takes effect for all threads at once; it fails only if the subscriber is gone or its
lock is poisoned, and is taken to succeed.

### Main: Model of a whole `shpool` command

Sources: `/repo/shpool/src/main.rs` (all of it), `/repo/libshpool/src/lib.rs` 310-364 (where log messages go) and 372-496 (`run`),
`/repo/libshpool/src/daemonize.rs` 40-123 (`maybe_launch_daemon`; the waiting is in the area Launch) and 149-158 (`cd /`),
`/repo/libshpool/src/config.rs` 57-98, `/repo/libshpool/src/attach.rs` 43-260 up to the moment the client is attached and 333-373,
`/repo/libshpool/src/detach.rs`, `kill.rs`, `list.rs`, `set_log_level.rs`, `var.rs`, `events.rs` (their `run`), `common.rs` 76-89.

What the command finds (environment, files, sockets, the daemon's answers) is a parameter, `World`; the model says what the command does
with it: which daemon it starts, which connection it makes, what it writes to its standard error, how it ends.  Simplifications: texts
of messages are left out, only that there is one; the arguments of a command that do not matter to this are left out; errors of printing
to standard output are left out; an attached client is modelled only by how it ends.

### Message: Session messages: resize and detach requests by name

`handle_session_message` and `dispath_session_message` in libshpool/src/daemon/server.rs (lines 809-898): a client asks the daemon to resize
the session of a name, or to detach it, and gets an answer.  The request looks the name up in the session table, lets go of the table, and
works on what it found; a resize request that finds no pager looks the name up a second time.  Between these steps anything can happen:
sessions are created (also in place of one of the same name), removed, attached to and left, and pagers come and go.

Simplified: sessions are numbered in the order of their creation.  Handing a size or a disconnect to the thread of a session or to the pager
and getting its acknowledgement (838-849, 855-871, 886-896) is one step, which either has its effect and is acknowledged in time, or ends the
request without an answer (the details of these handshakes are in the areas Handshake, Bidi, PagerSize).  The locks of
`shell_to_client_ctl` are not modelled, since each is held during one step only; that of the slot of the pager is, since it is held
over the second look into the table.

### Motd: Model of the message of the day

Source: `/repo/libshpool/src/daemon/show_motd.rs`.

Texts are lists of bytes (the code splits a `str` at `'\n'`, which is the same as splitting its UTF-8 bytes at 10).  Times of
the system clock are integers in nanoseconds since the epoch.

### Nest: Model of attaching from inside sessions

Sources: `/repo/libshpool/src/attach.rs` 101-239 (`Attach::run` and `attach_resolved`: nothing is asked about where the client runs),
`/repo/libshpool/src/daemon/server.rs` 400-520 (a session with a client is busy), `/repo/libshpool/src/daemon/shell.rs` 535-626 (what comes
from a session's terminal goes to its client), `/repo/libshpool/src/protocol.rs` 310-391 (the client writes it to its own terminal).

A client runs somewhere: at a terminal outside, or at the terminal of a session.  The model keeps for each session where its client
runs, and the output on its way.

Simplifications: sessions are numbers and a name is not used again; the threads, sockets and buffers between a session's terminal and
its client are one queue per session, relayed byte by byte; a forced attach (attach.rs 163-203) succeeds in one step.  What a session
without a client prints is only kept for a later restore.  The terminals add nothing to what is written to them (the client's is in
raw mode, tty.rs 103-122).

### Noise: Model of what the terminal shows while a shell is set up

Sources: `/repo/libshpool/src/lib.rs` 374-384 (what `shpool daemon` does first of all), `/repo/libshpool/src/consts.rs` 27-40,
`/repo/libshpool/src/daemon/server.rs` 1009-1016 (the terminal echoes unless `noecho` is set).

The scripts that are typed are those of `Verif/Inject/Model.lean` and the scanner is that of `Verif/Sentinel/Model.lean`; this area puts
them together with the terminal between them: what is typed comes back as echo, mixed with what the shell prints.

### Pager: Model of the message pager's control slot

Sources: `/repo/libshpool/src/daemon/pager.rs` 97-340 (`Pager::display`, `PagerCltGuard`), `/repo/libshpool/src/daemon/server.rs`
300-345 (the attach that displays it) and 822-874 (resize requests).

A transition system for one session.  Any number of threads may call `display`.  A resize request holds the slot's lock from
looking at it to the acknowledgement (server.rs 838-849), so it is one step; a request that times out has no effect here (it is
not acknowledged; `Verif/PagerSize` has the messages and the time limits).  Data, heartbeats and the pager's process are in `Verif/PagerRun/Model.lean`; why `display` ends is a choice of the environment.

### PagerFd: Model of the descriptor of a message pager's terminal

Sources: `/repo/libshpool/src/daemon/pager.rs` 141-175 (the terminal, the thread `pager_exit_monitor`), 213-311 (the loop of `display`), 342-388
(`PagerProcGuard`).

A transition system for one call of `display` from starting the pager on: the thread of the attach request, the thread that waits for the pager to exit, and the daemon's
table of file descriptors, in which all other threads open and close things.  `Verif/PagerRun` has what is relayed, under the assumption that the number of the terminal stands for the terminal;
`Verif/PagerSize` has the thread that sets new sizes.  Here it is the number that matters.

`display` works with bare copies of the number (`pty_master`, `watchable_master`, 175 and 215; they own nothing).  Two `Fork` values have it: `fork` (141) and its clone
`waitable_child` (155), which is moved into the thread that waits.  The comment in server.rs 1028-1037 says what the destructor of a clone does: it closes the
descriptor, so that others that use the number "read the wrong file"; for shells it is avoided there by giving the waiting thread the process number only.  The destructor
is in the crate `shpool_pty`, which is not part of the repository.

Simplified: what is read and written is not modelled, only from what and to what; an error or end of file when reading or writing is `leave` (chosen by the environment at any point of the loop),
and always comes if the number stands for nothing.  Heartbeats are left out.  The flag `pager_exited` is taken to be seen at once by the other thread (it is stored with
relaxed ordering).  That a read or write of something else than the terminal may block is left out.

### PagerRun: Model of a message pager while it runs

Sources: `/repo/libshpool/src/daemon/pager.rs` 130-404 (`Pager::display` from starting the pager on, `PagerProcGuard`).

A transition system for one call of `display`: the thread of the attach request, which relays between the client and the pager's terminal;
the thread that waits for the pager to exit (`pager_exit_monitor`); the pager; the client.  It begins when the pager has been started
(pager.rs 152).  That the number of the terminal stands for the terminal until `display` returns is taken for granted here; `Verif/PagerFd` shows when it
does not.  What comes before (control slot, message file) and the listener for new sizes are in `Verif/Pager/Model.lean`.

Simplified: reads and writes of the terminal and of the socket are lists of bytes; a write that does not go through because its reader does
not read is a step that is not performed.  The clock that tells when a heartbeat is due is a choice of the environment.
`Master::read` (of the crate `shpool_pty`) is taken to return 0 at the end of the terminal, as the comment in pager.rs 262-264 does; other errors
are a choice of the environment.  `wait_for_exit` is taken to return only when the pager has exited.

### PagerSize: Model of new window sizes while a message pager is shown

Sources: `/repo/libshpool/src/daemon/pager.rs` 110-125, 179-212 (the slot and the thread that listens for new sizes), 225-227 and
the other returns of `display`, 315-332 (`PagerCltGuard`); `/repo/libshpool/src/daemon/server.rs` 828-849 (a resize request).

A transition system for one message pager: the call of `display` that shows it, its size listener, any number of resize requests, and the
daemon's table of file descriptors, in which all other threads open and close things.  `Verif/Pager` has the slot and which size the session
begins with, with a resize request as one step; here the messages, the time limits and the descriptor are the point.

The listener has the bare number of the descriptor of the pager's terminal (pager.rs 180), not a handle that keeps it open.  Two `Fork` values have it: `fork` of
`display` (pager.rs 141) and a clone of it in the thread that waits for the pager to exit (155-173).  The comment in server.rs 1028-1037 says what the destructor of each of
them does: it closes the descriptor, also that of a clone (the destructor is in the crate `shpool_pty`, which is not part of the repository).  So the number is closed
when the thread that waits for the pager has seen it exit and ends, whether `display` has noticed or not, and again when `display` returns.  Then its variables are dropped in
the reverse order of their declaration: `fork`, declared in line 141, before `_ctl_guard`, declared in line 127.

Both channels have no capacity: a message is given to somebody who takes it.  Time is not modelled: a time limit may pass whenever a request waits.
What can have a descriptor is a number; that setting the size of something that is no terminal fails is left out (it is logged).

### Perms: Model of who can read what: umask, permission bits of the daemon's files

Sources: `/repo/libshpool/src/daemonize.rs` 149-151 and 170-176 (umask, pid file), `/repo/libshpool/src/daemon/mod.rs` 47-93,
`/repo/libshpool/src/daemon/events.rs` 90-92 (sockets), `/repo/libshpool/src/lib.rs` 416-440 (runtime directory),
`/repo/libshpool/src/daemon/server.rs` 284-285 and 574-622 (directories and files of sessions), 1011 (fork).

A mode is the nine permission bits.  All files belong to the daemon's user and one group.  What the operating system does with modes
(open(2), mkdir(2), bind(2), path_resolution(7)) is part of the model: a new file has the bits asked for that are not in the umask,
and connecting to a socket needs write permission on it.  Access control lists and the superuser are not modelled.
Requests are served by concurrent threads, which can fail between any two steps.

### Pipe: Model of the attach client's main loop

Source: `/repo/libshpool/src/protocol.rs` 250-519 (`Client::pipe_bytes`).

Three threads share one result slot: stdin-to-socket, socket-to-stdout and the main thread.  Every thread is a small
state machine; a label is one step of one of them, with what the operating system returned (bytes read, timeout, error).
Holding the slot's mutex is one step.

Simplifications: the decoding of a frame from the socket is `Verif/Chunk`; here `recv` delivers a whole frame (or an
error, which includes end of file, an unknown kind and an oversized frame).  Whether a switch hint is decodable and
whether the callback accepts it is chosen by the label (the callback is modelled in `Verif/Template`).  Bytes accepted by
`write_all` count as printed (the standard library's buffer is flushed after every frame, 355; a flush error is ignored,
as in the code).  `sleep_unless` is modelled in `Verif/Sleep`; here it ends either because its condition
holds or because the time is up, chosen by the label.  Panics of the threads do not occur in the model (there is no
panicking operation in them).

### Prompt: Model of attaching across versions

Sources: `/repo/libshpool/src/attach.rs` 101-108 (`Attach::run`: the first request), 332-376 (`dial_client`),
`/repo/libshpool/src/protocol.rs` 155-190 (`Client::new`), `/repo/libshpool/src/daemon/server.rs` 166-207 (`handle_conn` up to the
request), 1314-1318 (`parse_connect_header`), `/repo/libshpool/src/consts.rs` 17 (the time limit).

Time is in milliseconds since the daemon accepted the connection; computing and the transport of messages take no time.  The standard
input of the client is a list of what successive calls of `read` return, with the time at which they return it; a list that ends means
that nothing more comes.

### Reading: Model of detaching a client that reads a message

Sources: `/repo/libshpool/src/daemon/server.rs` 285-345 (`handle_attach` from the reply to `bidi_stream`; the pager is shown in between, for as
long as the user reads), 625-662 (`handle_detach`) and 772-807 (`handle_list`), on top of the daemon of `Verif/Server/Model.lean`.

The request that attaches a client has the session from selecting it, but the session's shell-to-client thread gets the client only when
`bidi_stream` starts.  A detach request asks that thread.  The user decides when the pager ends (`quit`; also if the connection breaks);
until then the request neither starts streaming nor returns.  What ends the streaming of a detached client is in `Verif/Bidi`; here it is one
step (`leave`).  `Params.reach` is a repair: a detach request also reaches a request that has the session and does not stream yet.

### Reaper: Model of the ttl reaper

Source: `/repo/libshpool/src/daemon/ttl_reaper.rs` 38-155, together with the places that feed it and share the session table:
`server.rs` 1165-1170 (registration), 506-530 (insertion into the table) and the removals at 376 and 760.

Session names are only compared for equality, so they are an arbitrary type `N`.  `Instant`s are natural numbers read off one
monotone clock.  The session table is a partial map; the reaper's step under the table lock is atomic, as are the insertions and
removals of the server, which hold the same lock.

### S2C: Model of the shell-to-client thread

Source: `/repo/libshpool/src/daemon/shell.rs` 152-234 (types, `shutdown_socket`), 263-649 (`spawn_shell_to_client`,
`write_exit_chunk`); `/repo/libshpool/src/daemon/show_motd.rs` 58-73 (`DailyMessenger::dump`);
`/repo/libshpool/src/session_restore.rs` 40-60 (the `SessionSpool` interface); `/repo/libshpool/src/tty.rs` 63-79.

The thread is a transition system.  One loop iteration is three steps, `select`, `settle` (resize and restore) and
`poll`; between any two of them the environment may act: time passes, the shell writes or closes its side of the pty,
the peer of a connection goes away, the configured message of the day changes.  What the code does not decide itself (which
channel is ready, how many bytes a read returns) is chosen by the label.

Simplifications:
* A client connection that has failed once keeps failing (`Health`); a failed write delivers nothing of its frame.
  (Writes have no timeout on these sockets, so there are no transient failures; a partly delivered frame on a
  connection that is then dead is not observable.)
* Sending an acknowledgement succeeds.  The rendezvous with the requester, including its timeouts, is modelled in
  `Verif/Handshake`.
* `set_fd` (an ioctl on the pty the daemon owns) succeeds.
* The restore engine (`SessionSpool`, third-party terminal emulators) is an arbitrary function of the operations
  performed on it; an operation also carries an opaque number standing for the configuration at that time
  (session_restore.rs 34-38 reads the width from the live configuration).
* Blocking writes to a client that does not read are not modelled here.

### Scroll: Model of the output spool

Sources: `/repo/libshpool/src/session_restore.rs`, `/repo/libshpool/src/daemon/server.rs` 58 and 1147-1154 (how many lines are
kept), `/repo/libshpool/src/config.rs` 350-377 (defaults).

The two terminal emulators (crates shpool_vt100 and shpool-vterm) are not part of the repository.  They are modelled by the
calls made to them; what they answer is an arbitrary function of these calls.

### Sections: Model of kill and detach requests and of the reaper, taken apart

Sources: `/repo/libshpool/src/daemon/server.rs` 625-662 (`handle_detach`), 738-769 (`handle_kill`);
`/repo/libshpool/src/daemon/ttl_reaper.rs` 108-121.

In the model of the session table (`Verif/Server`) each of these is one step.  They take their time, though: killing a shell means waiting
for it, detaching means waiting for the thread that serves the client.  The table is locked all the while, but threads that do not need it go
on: shells exit, clients leave, attach requests that have found their session begin to stream, time passes.  Here each session that a request
is about is a step of its own, with any steps of the others in between.  (A list request is taken apart in `Verif/Listing`.)

Simplifications: killing one shell is one step (`Verif/Kill` has the signals and the waiting); so is detaching one session, including noting
the time of it (`Verif/Handshake` has the messages).

### Sentinel: Model of the sentinel scanner

Source: `/repo/libshpool/src/daemon/shell_inject.rs` 220-254 (`SentinelScanner`),
`/repo/libshpool/src/daemon/shell.rs` 273-278 and 580-597 (its use on the shell's output),
`/repo/libshpool/src/daemon/shell_inject.rs` 168-197 (its use while waiting for the shell to start),
`/repo/libshpool/src/consts.rs` (the two sentinel texts).

### Server: Model of the session table and the requests working on it

Sources: `/repo/libshpool/src/daemon/server.rs` 242-397 (`handle_attach`), 400-571 (`select_shell_desc`), 625-662
(`handle_detach`), 738-769 (`handle_kill`), 772-807 (`handle_list`), 1163-1183 (`spawn_subshell`);
`/repo/libshpool/src/daemon/shell.rs` 67-122 (`SessionLifecycle`, `Session`); `/repo/libshpool/src/daemon/ttl_reaper.rs` 108-121.

A transition system: any number of threads serving attach requests, with kill, detach and list requests and the ttl reaper in
between.  Every critical section of the session table's lock is one step, except those that can block while holding it: the
third one of `select_shell_desc`, which waits for a session's own lock.  (`handle_detach` waits for the session's
shell-to-client thread while holding it; that is modelled in the handshake model, here the thread answers or is gone.)
(Other threads do go on while one holds the table's lock.  `Verif/Sections` takes kill, detach and the reaper apart and shows that the same
states are reached; `Verif/Listing` does so for list requests.)
A session's own lock (`inner`) is held by an attach request from selecting the session to the end of the request.
Times are those of a clock that does not go back.  Hooks and replies that cannot be sent are left out.

### SessDir: Model of the files in the directory of a session

Sources: `/repo/libshpool/src/daemon/server.rs` 270-286 (`handle_attach`: the session is chosen or made, then the link to the client's ssh agent
is set, then the file with the forwarded variables is written), 574-606 (`link_ssh_auth_sock`), 608-622 (`populate_session_env_file`), 1012-1104
(`spawn_subshell`: the shell is started and, if its prompt is set up, waited for until it has run its start files), 357-364 and 752-763 (a session is
removed; its directory is left as it is).

The directory of one session name is modelled (different names have different directories: C36).  The link and the file are represented by the
client they came from.  `agent` tells which clients have an ssh agent.  A shell can look at the files at any time, so the claims are about
every state in which there is a shell.

Simplifications: linking is on (`nosymlink_ssh_auth_sock` is not set).  One request at a time serves a name (the others are refused or wait:
C44); a shell exits, or is killed, while a client is attached or when no request is being served.  Replacing the link takes two steps in the
program, with no link between them; here it is one.  An error in setting the link or writing the file ends the request and leaves the session.

### ShellFd: Model of the descriptor of a session's terminal when the session is dropped

Sources: `/repo/libshpool/src/daemon/shell.rs` 105-123 and 156-174 (what a session holds), 283-286 and 301-600 (the thread that reads the terminal);
`/repo/libshpool/src/daemon/server.rs` 361, 545, 758 and `/repo/libshpool/src/daemon/ttl_reaper.rs` 120 (where sessions are dropped), 719-731, 851-872, 876-897
(requests that keep the control channels of a session for themselves).

A transition system for one session's shell-to-client thread, for dropping the session, for requests that have a reference to its control channels, and for the daemon's table of file
descriptors, in which all other threads open and close things.

The terminal belongs to `SessionInner.pty_master`, a `Fork` whose destructor closes the descriptor (see the comment in server.rs 1028-1037 and `Verif/PagerFd`).
The thread has bare copies of the number (283-284).  Nobody waits for the thread when a session is dropped: it is meant to notice that the senders of its
channels are gone ("SessionInner getting dropped, so this thread should go away", 391-395).  It looks at the channels once per turn and not while it polls and reads; and the senders
are gone only when no request has a reference to them any more.  Fields are dropped in the order of declaration, so that the session's references to the channels go
before the terminal.

Simplified: what is read is not modelled, only from what; a turn that cannot go on because the client does not take its output is a step that is not performed.  Errors are steps chosen by the environment.
`Master::read` returning 0 for an error (crate `shpool_pty`) or an error are both allowed.

### ShellPrompt: Model of what the injected setup does to the prompt of the shell

Source: `/repo/libshpool/src/daemon/shell_inject.rs` 72-120: the scripts written to bash, zsh and fish.

The area `Inject` has the texts of the scripts.  Here each script is a small program.  `render` spells the program out, line by
line, and a theorem says that this is the text of `Inject` (blanks at the start of lines and empty lines aside).  So what is
trusted is the meaning given below to each form of command:

* A variable holds a list of texts.  A plain variable of bash and zsh is a list of one.
* Assigning a text to a name that holds a list replaces its first element only (bash).
* An assignment sets the status (`$?`) to 0, and so does defining a function, and `echo` in fish.
* bash runs the elements of `PROMPT_COMMAND` before a prompt, and restores the status after each of them.
* zsh runs the function `precmd`, if there is one, then those named in `precmd_functions`, and restores the status after each.
* fish shows what the function `fish_prompt` prints; in it, `$status` is the status of the last command.

What the user's own commands and hooks do is not restricted: `ext` says, for each text, what running it does to the shell.
`user` stands for everything in the shell that the scripts never mention.  A prompt is the value of `PS1` or `PROMPT`; what the
shell makes of backslashes and percent signs when it prints it is not modelled.  The prefix is taken to hold no characters with a
meaning inside double quotes (see C78).  A user's hook that names the function of the daemon is not modelled, nor are arrays of
bash with gaps.

### ShellStart: Model of the wait for a new shell to start

Source: `/repo/libshpool/src/daemon/shell_inject.rs` 37-41 and 144-197 (`wait_for_startup`), called by `maybe_setup` (66) before the prompt is set up;
the attach request goes on whatever comes out of it (server.rs 1097-1104).

The loop with a clock in milliseconds: what happens in each round, and how long it takes, is given by the environment.  The marker command
that is written first (150-152) is in `Verif/Inject/Model.lean`; the scanner is that of `Verif/Sentinel/Model.lean`.

### Signals: Model of ending the daemon by a signal

Sources: `/repo/libshpool/src/daemon/signals.rs` 25-76, `/repo/libshpool/src/daemon/mod.rs` 94-103 (which files are removed, and when the
handlers are installed).

A transition system: the main thread installs the handlers one after the other, signals arrive at any time, and the thread started last
removes the files.  The crate `signal-hook` is modelled from its documentation: once an action is registered for a signal, the default
effect of the signal is gone, and the registered actions run in the order of their registration; `Signals` remembers signals from the
moment it has registered for them.  Files are numbered; a file is removed, or somebody else has removed it, or removing it fails.

### Sizes: Model of several clients whose terminals are resized

Sources: `/repo/libshpool/src/attach.rs` 100-137 (`Attach::run`: the signal thread is started before the first attach request; the slot
with the session's name), 140-240 (`attach_resolved`: refused, tried again, over), 243-330 (`dial_attach`), 421-507 (`SignalHandler`);
`/repo/libshpool/src/daemon/server.rs` 422-571 (a session has at most one client), 818-871 (a resize request names a session; nothing is
asked about who sends it).

The model `Winch` has one client and takes what others do to sessions as given.  Here there are any number of clients, each with a main
thread, a signal thread and a terminal, and the daemon's sessions with their clients and sizes.  Sizes, names and clients are numbers.
That a session takes over the size it is given is shown in `S2C` and `Handshake`; here it is one step.  Background attaches have no
signal thread and are left out.  Pending SIGWINCH signals are merged, as by the kernel and `signal_hook`.

### Sleep: Model of the interruptible sleep

Source: `/repo/libshpool/src/common.rs` 36-74 (`sleep_unless`).

Times are natural numbers (nanoseconds).  The environment is given per round: what the condition answers, how much later than
the end of the previous sleep the clock is read, and by how much the sleep overshoots (`thread::sleep` never returns early).
Simplifications: `deadline = now + total` does not overflow; the growth of the interval (`mul_f32`, a rounded multiplication)
is an arbitrary function.

### Slow: Model of connections that are slow

Sources: `/repo/libshpool/src/daemon/server.rs` 139-165 (`serve`), 167-240 (`handle_conn`), 625-662 (`handle_detach`), 664-697, 738-769
(`handle_kill`), 772-807 (`handle_list`), 505-515 (busy), 1310-1331 (`parse_connect_header`, `write_reply`);
`/repo/libshpool/src/protocol.rs` 43-69 (`encode_to`, `decode_from`); `/repo/libshpool/src/consts.rs` 17.

Times are milliseconds.  The timeouts are those of a socket: they limit each `read` and each `write`, not the whole request.  Requests are
decoded from, and replies encoded to, the socket itself, by many such calls.

Simplifications: a `read` that finds bytes takes no time; a `write` either finds room for some bytes or waits; what the request is does not
matter, only how many bytes it has.

### Spawn: Model of starting a shell and of the way its exit status takes

Source: `/repo/libshpool/src/daemon/server.rs` 906-1183 (`spawn_subshell`), `/repo/libshpool/src/attach.rs` 76-84 and 285 (the ttl).
The frame with the status is that of `Verif/S2C`, the client's handling of it that of `Verif/Pipe`.

Splitting a command line (`shell_words::split`) is a parameter.  What the operating system answers (terminal database, fork, threads,
channel) is a parameter.  Instants are seconds of the monotonic clock, in the range of `i64` (std's `Instant` on Linux; the
nanoseconds take no part since the ttl is whole seconds).  The prompt set-up is in `Verif/Inject`, the closing of
descriptors in `Verif/Fds`.

### StartCmd: Model of the commands typed ahead into a new shell

Sources: `/repo/libshpool/src/daemon/shell_inject.rs` 57-144 (`maybe_setup`: the setup, the start command and the command that prints the
marker are written to the shell's terminal at once), 147-230 (`wait_for_startup`), `/repo/libshpool/src/daemon/server.rs` 1078-1104 (a failed
setup is only logged), `/repo/libshpool/src/daemon/shell.rs` 578-626 (nothing is shown before the marker), `/repo/libshpool/src/lib.rs` 172-190
(`--start-cmd`).

The input of the session's terminal is one queue of lines.  Who takes a line from it is whoever reads from the terminal: the shell at its
prompt, but a program that runs in the foreground if it reads its input.  A program can also throw away what was typed ahead (as
programs do that ask for a password or change the settings of the terminal).

Simplifications: lines are taken as a whole; what a shell makes of a line is in the kind of line; an unfinished command (such as one with
an open quote) is one that takes a line of input; output is numbered.  The time the daemon waits for the shell's start is left open: it can give
up at any time before the start was noticed.

### Startup: Model of starting and stopping daemons: the files on disk

Sources: `/repo/libshpool/src/daemon/mod.rs` 37-116 (`run`), `/repo/libshpool/src/daemonize.rs` 40-203 (`maybe_launch_daemon`,
`PidFileGuard`, `daemonize`), `/repo/libshpool/src/daemon/events.rs` 85-113 and 190-214 (`EventBus::start`, `ListenerGuard`),
`/repo/libshpool/src/daemon/signals.rs` 57-72, `/repo/libshpool/src/lib.rs` 416-440 (runtime directory and socket path).

A transition system of any number of daemons and clients working on three files: the control socket, the events socket and the
pid file.  Every access to a file is one step.  Simplifications: no systemd activation socket; file operations fail only because
of the presence or absence of the file; the server's own set-up (`Server::new`) does not fail; a daemon that serves does so until
it is terminated by a signal or crashes (`listener.incoming()` never ends).

### Switch: Model of typing while a client goes from one session to another

Sources: `/repo/libshpool/src/attach.rs` 119-136 (the loop of `Attach::run`), 226-237 (`attach_resolved`); `/repo/libshpool/src/protocol.rs`
251-302 (`pipe_bytes`: the settings of the terminal, the thread that reads standard input), 374-387 (a switch is accepted), 393-517 (the end);
`/repo/libshpool/src/tty.rs` 93-141 (`set_attach_flags`, its guard; both use `TCSANOW`, which keeps what has been typed).

A transition system of the user's terminal and the client: each call of `pipe_bytes` sets the terminal to raw mode and, at its end, gives it
its former settings back; between two calls it has these.  The terminal is the line discipline of Linux (`n_tty.c`): what was typed
and is not read yet is kept when the settings change; in canonical mode the current line can be edited.

Simplifications: writing to the daemon succeeds; what is typed is not longer than the terminal's buffer.  The former settings are a
parameter (what a typed character does to the current line); `sane` are the usual ones.

### Symlink: Model of watching configuration files through symbolic links

Sources: `/repo/libshpool/src/config_watcher.rs` 30-82 (`canonicalize_path`, `best_effort_watch`), 330-342 (`add_watch_by_command`), 408-457
(`handle_event`), 462-500 (`watch_and_add`); `/repo/libshpool/src/config.rs` 57-98 (`Manager::new`: which files are watched).

This supplements `Verif/Watcher`, which has no links: here is what the watcher is set up to look at, and which single change of the file
system it is told of; there is how it goes on from one event to the next.

Simplifications:
* paths are absolute lists of components, outermost first, without `.` and `..`; links have such paths as targets;
* looking up a path fails after a fixed number of steps (Linux: after forty links);
* a watch of the kernel is for the thing a path leads to, and tells of changes of that and of its direct children; it can be set if the
  path leads to something.

### Template: Model of session name templates

Source: `/repo/libshpool/src/template.rs` 31-109.  `instantiated_size_guess` (a preallocation hint, lines 37 and
81-87) is not modelled: it has no observable effect.

### Trie: Model of the trie

Source: `/repo/libshpool/src/daemon/trie.rs` 1-151 (and the `ChordAtom` table in
`/repo/libshpool/src/daemon/keybindings.rs` 101-114).

The node vector is a list; the per-node symbol table (`TrieTab`, trie.rs 115-151: a hash map or a 256 slot vector,
both a finite map from symbols to node indices) is a function `Sym → Option Nat` with `set` as function update.

Indexing `self.nodes[i]` out of bounds would panic in Rust.  The model uses `nodes[i]?` with an empty node for the
out-of-bounds case; `Trie.Lemmas` proves that the indices used are always in bounds (`C07_indices_in_bounds`), so
the default is never taken.

### User: Model of looking up the user

Sources: `/repo/libshpool/src/user.rs` 26-97 (`info`), `/repo/libshpool/src/daemon/server.rs` 266-271, 915-919 and 958-961 (its use for
a new shell).

The user database is a function from user numbers to entries.  `getpwuid_r` copies an entry into a buffer of 4096 bytes and fails if
it does not fit; how many bytes an entry takes (`need`) depends on the system and is a parameter.  Decoding UTF-8 is a
parameter as well, and so is its lossy variant, which puts replacement characters for what cannot be decoded.

### Vars: Model of session variables

Sources: `/repo/libshpool/src/daemon/server.rs` 114-123 (defaults), 686-735 (`handle_get_vars`, `handle_modify_var`),
`/repo/libshpool/src/attach.rs` 101-139 (the client reads the variables, then attaches), `/repo/libshpool/src/daemon/shell.rs`
445-485 (a pushed state goes to the attached client, if there is one).

A transition system: any number of threads changing variables, any number of clients, one table of sessions.  The hash map is a
list of pairs without repeated names; its order, which is arbitrary in the code, is the order of insertion here.

### Version: Model of the version comparison

Source: `/repo/libshpool/src/protocol.rs` 154-190 (`Client::new`) and 205-240 (`Client::version_ord`).

### Watcher: Model of the configuration watcher

Source: `/repo/libshpool/src/config_watcher.rs` 59-82 and 214-500.

The state holds the file system, the watches registered with the kernel, the queue of notifications, the watcher's own table and its
reload deadline.  File system changes (by anybody) and the watcher's steps interleave arbitrarily.

Simplifications:
* paths are lists of components, innermost first, the root being `[]`; there are no symbolic links, so canonicalization is the identity;
* registering a watch succeeds exactly if the path exists;
* the kernel reports, for a watched path, the creation, removal, replacement and modification of its direct children, and the
  removal, replacement and modification of the path itself; a watch is dropped when its path is removed or replaced;
* one rewatch is not interleaved with file system changes, except in `bestEffortRacy`.

### Winch: Model of the window size following the client's terminal

Sources: `/repo/libshpool/src/attach.rs` 113-135 (the name slot), 243-293 (`dial_attach` reads the size and sends it), 421-507
(`SignalHandler`); `/repo/libshpool/src/daemon/server.rs` 810-903 (a resize request for a session that is not in the table is answered
`NotFound`), 409-530 (an attach puts the session into the table and gives it the size from the header).

A transition system of one client: its main thread, its signal thread, its terminal, and the daemon's sessions with their sizes.
Sizes and names are numbers.  That a session takes over a size it is given is shown in `Verif/S2C` and `Verif/Handshake`; here it is
one step.  Pending SIGWINCH signals are merged, as by the kernel and `signal_hook`.

### Wire: Model of the messages on the control socket

Sources: `/repo/shpool-protocol/src/lib.rs` 30-375 (the messages), `/repo/libshpool/src/protocol.rs` 43-69 (`encode_to`, `decode_from`).
Messages are MessagePack, written by rmp-serde with structs as maps, and read by it through the decoders serde derives.  Both
crates are not part of the repository: what they do with the types used here is modelled from the MessagePack specification
and their documentation.  A struct is a map from field names to values, written in the order of declaration; on reading, the order
does not matter, unknown fields are skipped, a missing field has its default or is an error, a field twice is an error.
A variant without data is its name, one with data is a map with the one entry from its name to the data.

Left out on reading: structs and variants given as arrays or with numbers for names (which the crates also accept, but never write), and
their limit on nesting (1024) in skipped values.  Strings are their bytes; which sequences of bytes are strings (UTF-8) is a
parameter.  Texts given as binary data and names that are not UTF-8 are refused here.  A reader that meets the end of the stream, or anything it cannot use, fails (`none`).

### Not modelled

* Argument parsing (`clap`), which messages are logged where (what becomes of a message is in `Logs`), `test_hooks` calls.
* The terminal emulators (third-party crates); they are uninterpreted.  MessagePack is modelled from its specification.
* What hooks do (code of the embedding program); that they return is assumed.
* How long the heartbeat thread and time-outs wait (that they can happen is in `Handshake` and `Bidi`).
* The wording of the messages about versions printed to the user.
* The text output of `shpool list` beyond what is cited (times are formatted by a library).
* Real time, except where a clock is an explicit part of the state.  Fairness of the scheduler is not modelled either: the theorems about
  infinite executions (names with `_fair`) assume, as hypotheses on the execution, exactly which threads are not put off for ever.

## 5. Axioms

`tools/check_axioms.sh` prints the axioms of every theorem named in MANIFEST.json.  The only ones that occur are `propext`,
`Classical.choice` and `Quot.sound`.

## 6. Results and defects

The status of every property.  "False" means that the negation is proved with a concrete history of the model, which is a defect
of the code (or of its documentation) as far as the model is faithful; the theorems named `_partial` prove what remains.

| id | status | remark |
|----|--------|--------|
| C01 | proved | Proved as stated. C01_frame_round_trip: Any legal frame whose payload fits the reader's buffer is written without failure and read back identically, leaving the following bytes untouched. C01_wire_layout: The wire layout itself, spelled out: kind byte, then (except for exit status) the little endian length, then the payload. This pins the format for independent clients. |
| C02 | proved | Proved as stated. C02_stream_round_trip: A sequence of legal frames written on one connection is decoded as exactly that sequence, for every way the byte stream (followed by arbitrary further bytes) is cut into segments. C02_segmentation_irrelevant: for arbitrary (also illegal) streams: the outcome of reading a frame is the same for any two segmentations of the same bytes: same frame and same remaining bytes, or same error. |
| C03 | proved | Proved as stated. C03_reader_sound: Reading from arbitrary bytes: whatever is returned is a legal frame that fits the buffer, and exactly the bytes of that frame were consumed. C03_unknown_kind_rejected: rejections: a kind byte above 3 is refused. C03_oversize_rejected: rejections: a declared length above the buffer is refused before any payload byte is read. C03_truncated_rejected: rejections: a truncated frame (any proper prefix of a legal frame) is refused with an EOF error, never decoded as something else. |
| C04 | proved | Proved as stated. C04_prefix_free: No frame's encoding is a prefix of another frame's encoding. C04_stream_injective: Different frame sequences have different byte streams. C04_truncated_length: The length cast makes frames of `2^32` bytes or more ambiguous, which is why `Legal` excludes them: the encoding of such a data frame equals kind byte + truncated length + payload. |
| C05 | partial | False for a message of the day or a switch hint of more than 16384 bytes (C05_false, C05_false_switch_hint). Proved for all other frames and for such texts up to that size. For the table of variables: the frame fits if names and values are short enough (C05_small_tables_partial) and never fits once they are 16384 bytes (C05_false_large_tables). C05_exact: the client takes exactly the frames of at most 16384 bytes; the longer ones carry only a message of the day or the switch hint. |
| C06 | proved | Proved as stated. C06_version_order: On well formed versions the answer compares minor numbers when both majors are 0, else major numbers; the patch number is irrelevant. C06_accepts_iff: The comparison succeeds exactly when both texts are well formed versions. C06_antisymmetric: Swapping client and daemon reverses the answer. C06_transitive: "Not newer than" is transitive. C06_client_new: A daemon whose version equals the client's is never reported as mismatching; one whose header cannot be decoded is still usable but reported. C06_warning: Which warning the user gets: "client is older" exactly if the daemon's deciding number is larger, "client is newer" exactly if it is smaller, none if they agree. C06_error: A daemon whose version cannot be compared with the client's is refused, with an error that names the side at fault: the client's own if that is not a version, else the daemon's. |
| C07 | proved | Proved as stated. C07_lookup: After any history of insertions, feeding a non-empty sequence and asking for the value gives the value most recently inserted under exactly that sequence. C07_cursor: The cursor after a non-empty sequence: a match that is flagged partial exactly when the sequence was never inserted itself, if some inserted key starts with it; otherwise no-match. C07_noMatch_sticky: No-match is final. C07_contains: `contains` answers exactly whether the sequence was inserted (including the empty one). C07_indices_in_bounds: No access is ever out of bounds: every index in a cursor reached from the start is a valid node index, so the Rust indexing never panics. |
| C08 | partial | False for Ctrl-1 and Ctrl-9, which the grammar allows but the code table lacks (C08_false). Proved for every other chord, any white space, any number of bindings. C08_exact: exactly the specs without Ctrl-1 and Ctrl-9. |
| C09 | partial | False: a dangling dash, a cut-off key word and an empty spec are accepted (C09_false). Proved: the exact set of accepted configurations. |
| C10 | partial | False for Ctrl-x/Ctrl-y, whose codes are swapped in the table (C10_false). Proved for all other keys. C10_exact: exactly the letters other than x and y. |
| C11 | proved | Proved as stated. C11_action_only_on_its_keys: Whenever the engine reports an action after the input `h ++ [x]`, the input ends with the complete byte sequence of a configured binding with exactly that action. C11_partial_is_proper_prefix: As long as the engine answers "partial", the bytes of that run are the beginning, but not all, of the byte sequence of a configured binding. |
| C12 | partial | False in general: the failing byte is not retried, a prefix binding shadows a longer one, and aliases of one byte disable a binding. Proved from an idle engine without aliasing or shadowing. C12_engine gives every answer to every input by a specification that knows only the list of bindings (the chord written last for a byte, the action written last for a sequence); C12_exact says exactly which bytes fire an action. |
| C13 | partial | False when a binding starts at the second byte of a read (C13_false). Proved otherwise. C13_exact: cutting the input into reads makes no difference exactly when no read begins with a byte to pass on directly followed by a binding that fires. |
| C14 | proved | Proved as stated. C14_transparent: If no binding fires, then for every input and every split into reads the thread keeps running, and what it has written to the shell, followed by what it still withholds, is exactly what the client has sent. What is withheld is a beginning, but not all, of some configured binding. C14_absent: in terms of the bytes alone. Input in which the byte sequence of no configured binding occurs reaches the shell unchanged, but for a last piece that is the beginning of a binding. |
| C15 | partial | False when a binding starts at the second byte of a read (C15_false). Proved otherwise, and unconditionally for one byte per read. C15_exact: exactly what the shell gets — the ideal output, except that a read which begins with a byte to pass on directly followed by a binding that fires loses that byte. C15_exact_loss: as many bytes are missing as there are such reads. |
| C16 | partial | False when the input shares a read with the detach sequence (C16_false). Proved when the read begins with or inside the detach sequence; in general only bytes of that read are lost. C16_exact: exactly what was delivered when the detach binding fires. |
| C17 | proved | Proved as stated. C17_no_panic: For every configuration, every buffer size and every series of reads the thread neither panics nor writes anything but bytes it has received, in the order received. |
| C18 | partial | False at the end of a session: output the shell wrote just before exiting is dropped if the hangup is noticed first (C18_false). Proved: what is read is relayed to a working client in order, without loss or duplication, after the snapshot and the message of the day; in every fair execution unread output reaches a client that stays attached (C18_fair_partial). C18_exact: the client received everything but what was still unread when the end was noticed. |
| C19 | proved | Proved as stated. C19_fair: over time: in every fair execution in which the thread goes on, whatever clients come and go, all that the shell has written at some moment is later read, and the history then is its visible part. C19_history: The text fed to the restore engine is exactly the visible part (C20) of what was read from the pty: a function of the bytes read alone. C19_independent_of_clients: Two sessions whose ptys delivered the same bytes have the same history, whatever their clients did and however the bytes were cut into reads. C19_complete: Without prompt injection nothing that was read is missing from the history. C19_reads_without_client: Reading goes on without any client: at the poll, pending output is read up to the size of the buffer whether or not a client is attached, as long as the shell's side of the pty is open. |
| C20 | partial | False if the text before the sentinel ends in a beginning of the sentinel (C20_false). Proved otherwise; segmentation never matters; nothing is shown before a complete sentinel. C20_exact: exactly if what precedes the sentinel falls into tries the scanner can tell from it. |
| C21 | proved | Proved as stated. C21_exit_frame_last: On every connection, an exit-status frame is the last frame (hence there is at most one). C21_at_most_one: At most one. C21_attached_not_told: A client that is still attached has not been sent an exit status. C21_told: A working client that is replaced or detached is sent exit status 0, and one whose shell has exited is sent the shell's status. |
| C22 | partial | False for a detach request that reaches a new session before its first client (C22_false). Proved for requests handled later. The rendezvous with the thread is in the handshake model. C22_exact: the detach is misreported exactly if it is handled before the first client. |
| C23 | proved | Proved as stated. C23_fair: over time: in every fair execution in which time goes on and the thread too, after the last attach or resize request the pty comes to have the size asked for and keeps it. C23_settled: With no resize pending, the pty has the size in the most recent attach or resize request. C23_pending: A pending resize is always the most recent request and is due at most 50ms from now. C23_converges: Convergence: after 50ms the next pass of the loop leaves the pty at the requested size with nothing pending. |
| C24 | proved | Also over time: in every fair execution the client ends once stdin or the connection has ended or the outcome is decided, with the status received (C24_fair_one, C24_fair, C24_fair_status, C24_fair_received). |
| C25 | proved | Proved as stated. C25_minutes_seconds: mm:ss. C25_hours_minutes_seconds: hh:mm:ss. C25_days_hours_minutes_seconds: dd:hh:mm:ss. |
| C26 | proved | Proved as stated. C26_suffix_duration: A numeral followed by a unit letter denotes that many units. |
| C27 | partial | False of the code: overflow panics or wraps and text between number and unit is ignored (C27_false). Proved: the exact form and value of everything accepted under overflow checks; that without them (the release profile) the parser never panics and differs only where the other one does; and that a string without a colon not ending in s, m, h or d is rejected. C27_exact_…: for each documented form, the value, the refusal, the crash or the wrong value, as a function of the numbers. |
| C28 | proved | Proved as stated. C28_render_parse: An accepted template renders back to its source, its literal pieces are non-empty and contain no opening brace, and its variable names are identifiers. |
| C29 | proved | Proved as stated. C29_apply_is_substitution: Instantiation is substitution in the source text: every group replaced by the variable's value, everything else copied, and inserted values are not expanded again (the relation never looks inside a value). C29_substitution_unique: The substitution result is uniquely determined by the source and the variables. C29_depends_on_named_vars: Only the variables named in the template matter. |
| C30 | proved | Proved as stated. C30_accepts_iff_wellFormed: Acceptance is exactly well-formedness. C30_unique_parse: The parse is unique: any canonical piece list that renders to the source is the one the parser finds. |
| C31 | partial | False for a line that is not UTF-8 (even a comment): the whole file is refused (C31_false). Proved for all UTF-8 files. C31_exact: the file is refused exactly if a byte of it is not UTF-8. |
| C32 | proved | Proved as stated. C32_precedence: If loading succeeds, the value of every setting is the one of the last file that mentions it, and it is unset if no file does. Loading succeeds exactly if no file is malformed. C32_user_over_system: With the two standard files: the user's value if the user's file sets it, else the system's. C32_merge: Merging is associative and an empty configuration is neutral; an unreadable or empty file changes nothing. |
| C33 | proved | Proved as stated. C33_last_good: After any sequence of reloads the daemon works with what the latest successful load produced: the last reload that found no malformed file, or the initial load if every reload failed. C33_starts: The daemon starts exactly if no file is malformed at start; no later edit stops it. |
| C34 | partial | False for removed files (C34_false: a file loaded while its directory was not yet watched and removed before it is). Proved: no change of an existing file is lost, a due reload is never postponed, reloads are a debounce period apart; over time, in every fair execution, a reload asked for happens (C34_fair_reload) and the last content of a file is loaded for good (C34_fair_partial, C34_fair_single_partial). C34_repaired: with the repair of C35_repaired, no change of an existing file would be lost for any number of files. |
| C35 | partial | False: a rescan with two existing files forgets one (C35_false), so do a shared missing directory, a moved directory and a race in the ancestor search (C35_false_*). Proved for one file, and for several if no event concerns two of them. C35_repaired: had rewatch looked at every entry an event concerns and kept the watches, every path asked for would be watched, for any number of files, short of moving whole directories. |
| C36 | proved | Proved as stated. C36_direct_child: The directory of every accepted session is a direct child of `<runtime dir>/sessions`: one more path component, and that component is the name. C36_injective: Different accepted names have different directories, links and files. |
| C37 | proved | Proved as stated. C37_agree: The client refuses a name exactly when the daemon would. C37_accepted: What both accept. |
| C38 | proved | Proved as stated. C38_precedence: In a new session every variable other than TERM has the value from the first of these sources that defines it, and is unset if none does: `/etc/environment`, the variables forwarded by the client (except SSH_AUTH_SOCK), the configured `env` table, the daemon's base variables. (TERM is the subject of C39.) C38_succeeds: The environment can be built unless `/etc/environment` is to be read and cannot be parsed. |
| C39 | partial | False if /etc/environment sets TERM, which overrides the config (C39_false). Proved otherwise. C39_rule gives TERM in every case, C39_exact exactly when it is the one asked for. |
| C40 | proved | Proved as stated. C40_stable_path: Unless the configured env table or `/etc/environment` sets it, SSH_AUTH_SOCK is a path determined by the session's name and the runtime directory alone, whatever the client's own value. C40_spelled: C38, C36. Where a session's files are, in full, for a runtime directory given without a slash at its end. C40_link_follows_last_attach: After any sequence of attaches to any sessions, the path seen in session `n` is a link to the agent socket of the most recent attach to `n` that had one. |
| C41 | proved | Proved as stated. C41_start_dir: The session starts in `--dir` (`.` meaning the client's directory), else in the configured default (`.` meaning the client's directory; `$HOME` or nothing meaning the home directory), and in no other place. |
| C42 | proved | Proved as stated. C42_targets: What a kill or detach acts on: the named sessions if any are named, otherwise the session it runs in, otherwise nothing; in that last case no request is sent and the command fails. C42_exit_status: Success means: a request was sent, the daemon replied, and the reply names no session as not found (or, for detach, as not attached). |
| C43 | partial | False: a session whose shell exited without a client makes every change fail without answer (C43_false, C43_false_forever); concurrent changes can be pushed out of order (C43_false_order); a change between a client's reading and attaching is never pushed to it (C43_false_gap). Proved: map semantics for all histories, every answered change was pushed with the state right after it, and the views of all clients when changes do not overlap. C43_view_exact: in every execution an attached client knows the state its session's thread took last of those waiting at the attach or pushed since, and before any what it had read; C43_known_exact: that is the state at its last reading. |
| C44 | partial | At most one request has a session (C44_at_most_one) and busy answers change nothing (C44_busy) without conditions. That a request serves its own client is false when two clients create a session of one name at the same time (C44_false); proved as long as none starts while another creates (C44_own_client_partial). C44_exact: in every history a session's output goes to the client of the request that was given it last (made it, or found it free). |
| C45 | partial | Replies and effects of kill and detach are proved for requests that are answered. False in general: a shell that cannot be killed or an ended shell-to-client thread ends the request without a reply after part of it was done (C45_false_kill, C45_false_detach). With the requests taken apart (Verif/Sections: other threads go on while a request works through its names with the table locked) kill is as described (C45_kill_apart); a detach reply tells of each session what was the case at some moment of the request (C45_detach_apart), not of all at one moment (C45_false_moment). Shpool.Sections.steps_sound and steps_complete: the two models reach the same states of the daemon, so all properties of states proved with the requests as single steps hold with them taken apart. Of all requests: C45_kill_exact and C45_detach_exact say exactly which sessions are gone or without a client afterwards and which names the reply lists, names given twice included; C45_kill_unanswered says exactly when there is no reply. |
| C46 | partial | False: a kill request naming a session twice publishes two removed events (C46_false). Proved for histories whose kill requests name no session twice. C46_exact: exactly the histories without such a request. |
| C47 | partial | False in three ways: the end of the request of a killed session removes the session created since under its name (C47_false), racing creations replace each other (C47_false_race), an ended shell-to-client thread lets attach replace a running shell (C47_false_thread). Proved with these excluded (C47_leaves_partial). C47_exact: in every step of every execution exactly four things take a session out of the table. |
| C48 | partial | False: a client attaching to a session just created can deadlock the daemon for good (C48_false, C48_false_all). Proved as long as no attach request starts while another creates a session of that name (C48_free_partial; C48_fair_partial: in every fair execution every attach request under way then ends). Without any condition on the requests: in every fair execution an attach request ends, or one request holds the table's lock for ever, waiting for a session (C48_fair). handle_detach waiting under the table lock for a session's thread is covered by C76. C48_exact: a request that holds the table while waiting for a session can still get it exactly if the session is free or whoever has it has not begun to pass bytes or has finished with the table; otherwise the daemon is stuck for good. |
| C49 | proved | Proved in full for the list as a function of the table under its lock. Times are natural numbers, the error for times before 1970 is taken up in C171. That the request looks at the sessions one after the other is taken up in C153. |
| C50 | partial | The order of the recorded times and when they change are proved without conditions (C50_order, C50_changes; the clock does not go back). That the record matches who is attached is false after an early end of a request (C50_false) and after kill and recreate (C50_false_name); proved with these excluded (C50_attachment_partial). C50_exact: in every history the record shows exactly the last request given the session, unless somebody has been recorded to have left since. |
| C51 | proved | Proved as stated. C51_framing: A line contains exactly one newline, at its end, and different events have different lines. C51_whole_events_in_order: Whatever the interleaving and however the writes are cut up, what a subscriber (connected or already dropped) has been sent consists of the lines of the first so many events published since it was accepted, in order, without gap or repetition, followed by at most the beginning of one more line. C51_publish_order: What is published is what the calls to `publish` asked for, in the order of the calls; only an event whose call found the channel full can be missing. C51_nothing_missing: For a subscriber that has not been dropped, what was sent plus what is queued for it is exactly the lines of all events broadcast since it was accepted. |
| C52 | proved | Also over time: in every fair execution every published event is broadcast (C52_fair). |
| C53 | proved | Proved as stated. C53_bounded: No subscriber's queue ever holds more than 64 events, and the channel never more than 4096. C53_dropped_only_for_cause: A subscriber that is not yet dropped gets dropped only if its queue holds 64 events when another arrives, or its own socket reports an error or hang-up. C53_isolation: Erase every subscriber but one from any run: what is left is a run of the system in which only this subscriber ever connected. So everything about it (received bytes, queue, whether it is dropped) is the same as if the others, however slow or broken, did not exist. |
| C54 | partial | False for a subscriber that connects while the sink is emptying its channel (C54_false), and for one whose connection the daemon cannot accept at first because accept(2) fails (C54_false_accept). Proved when no broadcast is in progress at the connect and no failing accept passes the subscriber over. Over time, in every fair execution: C54_fair_partial. C54_exact: a subscriber gets every event since its connect if and only if none of them was taken from the channel before its connection was accepted. |
| C55 | proved | Proved as stated. C55_not_before_deadline: In every history, when the reaper takes a session away, that name was registered with a deadline that has passed, and everything it still has scheduled is due no earlier. Sessions of other names are untouched. C55_only_reaping_removes: The reaper's other steps never touch the table. |
| C56 | partial | False while the newer registration is still in the channel (C56_false): the reaper may serve its timer first and kill the new session for the old deadline. Proved from the moment the newer registration is received. C56_exact: it happens exactly if a registration of the name is on its way to the reaper at that moment. |
| C57 | partial | Both halves are false in general (C57_false_ttlless_killed: name reuse; C57_false_never_reaped: deadline passes before the session is in the table). Proved: a name never registered is never reaped; a session inserted before its deadline whose registration is the latest of its name is reaped (C57_reaped_partial: the reaper can always go on to do so; C57_fair_partial: in every execution in which time goes on and the reaper is not starved it does). Exactly: C57_takes_exact (what a served entry takes away), C57_exact (a session left alone leaves the table, in every fair execution, exactly if the reaper has a registration of its name before it, its own or another one's), C57_never (otherwise no step of the reaper ever takes it until the name is registered again). |
| C58 | partial | A wait that timed out just before the announcement still returns nothing (C58_false). Proved: all other present waiters and all future waiters obtain the status; nothing is reported before; in every fair execution a thread waiting when the exit is announced obtains the status and a wait with a timeout comes back (C58_fair, C58_fair_timed). C58_exact: a wait that slept returns "still running" exactly if its own timeout passed before the first announcement during the wait, and otherwise the status announced last. |
| C59 | proved | Proved as stated. C59_bounded: Whatever the daemon answers to a (forced or plain) attach: at most one detach request is sent, for that very session; at most 22 attach requests are sent; and after 22 answers at the latest the client has attached, reported the session busy or failed. C59_no_force: Without force a busy session is reported after one attach request and nothing else is sent. C59_force: With force, a session that stays busy makes the attach fail; one that becomes free within the first 21 retries is attached to. |
| C60 | proved | Proved as stated. C60_switches: The sessions attached to, in order, are the names the template has under the initial variables and under each update, without immediate repetitions: the client switches exactly when an update changes the name. C60_current: The session it is attached to in the end is the one named by the template under the latest variables it was told about. C60_leaves: An update to an unacceptable name makes the client leave: no further session is attached to. |
| C61 | proved | Proved as stated. C61_same_user: A request is acted on only if the peer runs as the daemon's own user. C61_rejected: A peer of another user gets the version, a `forbidden` reply if it asked to attach, and the connection is closed; nothing else happens. C61_served: A peer of the same user is served, with a warning only if its binary differs. |
| C62 | proved | Proved as stated. C62_aligned: After the heading there is one line per session, in order. Each is the session's name, blanks, a tab and the status, and the tab is at the same byte offset in all of them: the length of the longest name. C62_readable: If the names contain no white space (as the daemon ensures), the rows determine the sessions. |
| C63 | partial | False after a crash: two clients that both find the socket file of a dead daemon can remove each other's new socket, and two daemons serve (C63_false). Proved: the waiting times, the lock on the pid file, and one daemon as long as none crashes. C63_cause: whenever two daemons serve, one had crashed, and the socket file of one of the two was taken away by somebody who had seen nobody listening. C63_repaired: were the lock kept as long as the daemon lives and the left-over file left to the daemon, at most one daemon would serve in every history, crashes included. |
| C64 | partial | False for a resize acknowledged between the end of the pager and the connection of the session (C64_false, C64_false_gap). Proved: exclusive, slot freed, last size acknowledged before the pager ended. Exactly: C64_connected gives the size the session is connected with (the last one told between the pager's start and its decision to end), C64_exact when that is the last one told. Over time: once a pager has ended, the session is connected with its size in every fair execution (C64_fair). |
| C65 | partial | False for an interval of 2^62 seconds or more, which makes the daemon panic at start (C65_false). Proved otherwise. C65_exact: exactly if twice the interval before now is a time the clock can hold. |
| C66 | proved | Proved as stated. C66_polite_first: the first signal is always the hangup, and it is sent exactly once. C66_escalates_iff: the kill signal is sent exactly when the hangup was delivered and the shell did not exit within the grace period — never before the grace period. C66_waits_before_kill: and only after waiting. C66_errors: the result is an error exactly when a signal that was due could not be sent for another reason than the process being gone, and the error names that signal. C66_success: success means the shell is on its way out: it was already gone, it exited in the grace period, or the kill signal was delivered (or found it gone). C66_pager: a pager left behind is asked to terminate, and killed exactly when it has not exited in any of the seven looks over at most 1270 milliseconds; a pager that had exited is left alone. |
| C67 | proved | Proved as stated. C67_ends_with_sentinel: whatever the shell, prefix, name and start command, the script ends with the command that prints the prompt sentinel. C67_sentinel_own_line: that command stands on lines of its own. C67_start_cmd: a configured start command is a line of the script, between the prompt setup and the sentinel command; the prompt setup does not depend on it. C67_no_start_cmd: without a start command the script is the prompt setup and the sentinel command, nothing else. C67_unknown_shell: in a shell that is not known no prompt setup is injected. C67_prefix_present: in a known shell the expanded prefix is part of the prompt setup. C67_fits_shell: the script fits the shell: bash gets the setup of `PS1` and `PROMPT_COMMAND`, zsh that of `PROMPT`, fish that of `fish_prompt` (a login shell's name begins with a dash, so the end of the name decides). C67_prefix_expanded: the prefix is the configured one with every `$SHPOOL_SESSION_NAME` replaced by the session name. C67_when: nothing at all is injected for a custom command, for a shell without sentinel support, and when neither a prefix nor a start command is wanted; otherwise the session waits for the sentinel. C67_written: without a configured prefix the default one is used, and once the shell has started the text written to it is the command for the startup sentinel followed by the script. |
| C68 | proved | Proved as stated. C68_raw: the raw message is the original text, byte for byte, with the carriage return inserted after every line feed and a line end appended. C68_lossless: nothing else is lost or added: for a text without carriage returns, removing them from the raw message gives back the text and one line feed. C68_no_capability: a terminal without the carriage return capability is an error, not a garbled message. C68_noupdate: The resolver's arguments contain `noupdate` exactly once more than needed: never added twice, never missing. |
| C69 | proved | Proved as stated. C69_explicit: an explicit number of lines wins. C69_lines_mode: otherwise the number in a `lines` restore mode. C69_default: otherwise 500. C69_simple: a session created in the simple mode never restores anything, with either engine, whatever the emulator, the output, the resizes and later configurations. C69_screen: the default mode and the default engine restore the screen of a terminal that has seen all output, followed by the input modes. C69_lines: the `lines` mode restores that many lines (of those kept) and the input modes. C69_vterm: the other engine, by mode. C69_fed: either emulator has been given exactly the output of the shell, in order. |
| C70 | partial | False for a back-off whose maximal interval is zero: it polls without sleeping (C70_false_spin). Everything else proved. C70_exact: a strategy that does not shrink polls without sleeping exactly when it is a growing back-off with a maximal interval of zero; C70_spins says what that is like (any number of polls at one moment). |
| C71 | proved | Proved as stated. C71_forwarded: The attach header carries exactly the variables TERM, DISPLAY, LANG, SSH_AUTH_SOCK and those listed in `forward_env` that are set in the client, with the client's values; nothing else of its environment is sent. C71_reaches_session: end to end. A variable listed in `forward_env` (or DISPLAY, LANG) that is set in the client is set in the session to the client's value, unless `/etc/environment` sets it. |
| C72 | partial | False if a value contains a line feed (C72_false). Proved otherwise. C72_exact: the file gives the variables back exactly if no name has an equals sign and no name or value a line feed. |
| C73 | partial | False if both standard files are the same file (C73_false: XDG_CONFIG_DIR=/etc). Proved otherwise. C73_exact says exactly when the daemon starts. |
| C74 | partial | False: XDG_CONFIG_DIR is consulted instead of XDG_CONFIG_HOME (C74_false). Proved if both agree or neither is set. C74_exact: the documented files are read exactly if both variables lead to the same directory. |
| C75 | partial | False: changing the motd mode between creation and first output of a session panics its output thread (C75_false); in builds with overflow checks so does a terminal with 65535 rows or columns. Proved for sessions that do not dump the message of the day, which go on exactly as if nothing had been edited but for the text of restore snapshots (C75_independent_partial), and for those that do while the mode stays (C75_dump_partial). Exactly: the thread panics iff it shows its first output while the message of the day is to be dumped and the mode is another, or, with overflow checks, a terminal of 65535 rows or columns attaches (C75_exact). |
| C76 | partial | False: a requester that gives up waiting for an acknowledgement leaves the shell-to-client thread blocked in sending it for ever (C76_false, C76_wedged_forever); a following `shpool detach` then blocks the whole daemon (C76_false_untimed). Proved: recovery while every acknowledgement is in time (C76_recovers_partial; C76_fair_partial: in every fair execution every request ends), a request with time limits ends in every fair execution whatever the state of the session (C76_timed_ends), and answers are never mixed up. C76_exact: exactly the states from which the thread can take another request or end; C76_exact_goes_on: exactly those from which it can take another request. |
| C77 | partial | False: the shell of a detached session is reaped on exit while the session stays in the table; its process number can be reused and gets the signal (C77_false). Proved while the shell has not been reaped. C77_exact: a kill hits whoever has the process number after the history (read off the history); C77_cause: a wrong process is hit only if the end of the session's own shell was collected while the session stayed in the table. |
| C78 | partial | False for names with a quotation mark, backslash, dollar sign, backquote, exclamation mark or (zsh) percent sign (C78_false, C78_false_each). Proved for all other names and bash, zsh and fish, with the default prefix. C78_exact: exactly the names all of whose characters stand for themselves. |
| C79 | partial | False: the last attempt is made before the last, longest sleep (C79_false). Proved: found exactly if the daemon answers within 2550 ms. C79_repaired: with one more attempt after the last sleep every daemon that answers within the waiting time is found, and nobody waits longer; C79_repaired_last for any number of attempts. |
| C80 | partial | False if the clock is set back after a display (C80_false). Proved for clocks that never go back. C80_exact: exactly if the clock is behind the time of the last display. |
| C81 | partial | False if the shell's start files take longer than the waiting time: nothing is told to the shell but its output stays hidden (C81_false; from end to end, C81_false_slow). Proved if the start was noticed. C81_exact: exactly if the start was noticed in time. |
| C82 | partial | False if the path contains a blank or a character special to a shell: it is not quoted (C82_false, C82_false_special). Proved for all other paths. C82_exact: exactly the paths without blanks, newlines and special characters. |
| C83 | partial | False: the loop runs to the number of the sysconf name (4), not to the limit, so only descriptor 3 is closed (C83_false). Proved: exactly the descriptors without close-on-exec other than 3 are inherited. C83_exact: closing up to a bound is enough if and only if the bound is at least the limit of open files. |
| C84 | partial | False after a crash: of two clients that find the left-over socket the second fails to remove it and reports an error (C84_false). Proved: no failure without a crash; failure only in that situation; recovery of a client that is alone. C84_cause: whenever a client is turned away, somebody else removed the left-over file between its looking and its removing. C84_repaired: the same two changes would let no client fail and no daemon with the lock give up; C84_repaired_recovers: a daemon started while nobody holds the lock would end up serving whatever was left behind. |
| C85 | partial | False: a second daemon takes over and removes the events socket before it notices the first (C85_false_events), and a second daemonized one removes the pid file (C85_false_pid). Proved: the control socket stays without crashes, and everything stays if no second daemon is started. C85_control_cause, C85_events_cause, C85_pid_cause: every file a serving daemon has lost was taken away by another one (who, and when), in every history with crashes. C85_repaired: with the lock kept as long as the daemon lives, a serving daemon would keep both sockets and its pid file in every history. |
| C86 | partial | False for sockets in the same directory, which share events socket, pid file and log file (C86_false_same_dir). Proved for different directories and for the per-instance runtime directory. C86_exact: nothing is shared if and only if the directories differ. |
| C87 | partial | False: a daemon launched by a client clears its umask for good, so everything made in its sessions can be changed by everybody (C87_false, C87_false_files). Proved for daemons started by hand or by systemd. C87_exact says exactly when the umask is kept. |
| C88 | partial | False for an end by a signal such as SIGTERM, which leaves the terminal raw (C88_false). Proved for every other end. C88_exact: what a signal leaves behind. |
| C89 | partial | False if the terminal is resized between reading the size and the attach (C89_false, C89_false_reattach). Proved when no resize request overtakes the attach; the next resize always repairs it. C89_exact: the size is wrong if and only if the terminal was resized after its size was read and every request about it went out before the attach. Over time: a client that stays attached, whose terminal is not resized again and whose requests do not fail: the session gets the size of the terminal and keeps it, in every fair execution (C89_fair). |
| C90 | partial | False: a busy session and an unacceptable name are reported with status 0 (C90_false, C90_false_name). Proved with --force and good names; the statuses of all other ends are proved. C90_exact: the exit status is 0 exactly in five ways, two of which are the defects (also after a switch between sessions). |
| C91 | partial | False: the detached event is published before the session stops counting as attached, created and attached before it counts as attached, and a client lost during the pager causes no event (C91_false, C91_false_created, C91_false_abort). Proved: sessions and names never change without an event; in orderly histories, lists taken when no request is in the middle of being served stay right until the next event. C91_request_partial: the same for the answers of list requests, which look at the sessions one after the other: between two quiet moments without an event, the list is the same at every moment, so it does not matter that the answer is put together over time. |
| C92 | partial | False after the thread that serves the clients of a session failed: all later attaches are told they are attached and get nothing (C92_false, C92_forever). Proved if attaches of one name do not race and the threads do not fail. C92_exact: the client is connected when its request starts streaming if and only if the session's shell-to-client thread has not ended. |
| C93 | partial | False for a ttl of 2^63 seconds or more, which crashes the thread serving the request (C93_false). Proved for all others. C93_exact: exactly when the thread panics; C93_repaired: taking such a ttl for none, it never would. |
| C94 | partial | False: if the thread serving the client is busy for 300 ms when the shell exits, the connection is closed without the status (C94_false). Proved: in undisturbed attachments, for all schedules (C94_told_partial); and the translation from the results of waitpid to what the client is told. Not told it is only if the shell-to-client thread does not get to a message in time, ends by an error, or the terminal is closed 500 ms before the shell exits (C94_cause); each of these is enough (C94_each). Other failures cannot be the reason. |
| C95 | proved | Fully proved; splitting the command line into words is a parameter. |
| C96 | partial | False when the configuration sets a shell: SHELL is still the user's default one (C96_false). Proved otherwise. C96_exact says exactly when SHELL is the shell that runs. |
| C97 | partial | False for a ttl out of range, a thread that cannot be started and a reaper that is gone: the shell was already started (C97_false). Proved otherwise. C97_exact: exactly the causes of a shell without a session. |
| C98 | partial | False if /etc/environment sets TERM (C98_false). Proved otherwise. C98_rule gives the database used in every case, C98_exact exactly when it is the right one. |
| C99 | partial | False in directories open to others, when the client has no agent or nosymlink_ssh_auth_sock is set (C99_false, C99_false_nosymlink). Proved: below a closed directory; after the first attach with an agent; always, if all clients have one; with a umask that takes the permission to read. C99_exact says exactly when another user can read the forwarded variables, for every umask, history and directory above. |
| C100 | partial | False for a daemon launched by a client in a directory open to others, since its umask is empty and there is no check of the peer (C100_false). Who can subscribe is determined exactly (C100_who). Proved for the other ways to start and for closed directories. C100_repaired: exactly which umasks, if daemonize set one instead of clearing it, would keep others from subscribing. |
| C101 | partial | False: a value with a blank makes the shell run the rest of it as a command (C101_false, C101_false_runs). Proved for values without characters that can mean something to the shell. C101_exact, with the shell language read in full but for $, ` and ~ (quotes over lines, comments, operators): the file does what it should exactly if no value has one of the listed characters; C101_repaired: with values in single quotes it always does. |
| C102 | proved | The MessagePack crates are modelled from the MessagePack specification and their documentation. |
| C103 | partial | False: some fields have no default, e.g. the sizes in pixels of a window (C103_false); one session in an unknown state makes the whole list unreadable (C103_false_new_state); unknown requests are not answered (C103_false_new_request). Proved: attach requests, lists, and the simple messages, with unknown, missing and reordered fields; the other messages with unknown and reordered fields. C103_exact: a window size with some of its fields is read if and only if all four are there; C103_repaired: with a default for each field it always is. |
| C104 | partial | False: on_new_session is called before the shell is started and is not taken back if that fails (C104_false); a client that hangs up on the pager gives no closing call (C104_false_pager); a session that ends while detached gives none either (C104_false_kill); killed and created anew, the calls overlap (C104_false_order). Proved: the calls of each request; that they have no effect; what holds when they are made; turns, while requests for a name do not race or fail. |
| C105 | partial | False: LISTEN_PID is not looked at, so with LISTEN_FDS=1 left over from another process the daemon takes the first thing it opened itself for the socket, and closes it if it is not one (C105_false, C105_false_stale). Proved: the socket passed is used; without being asked nothing is touched; only sockets are taken. C105_exact: it goes wrong if and only if LISTEN_FDS asks for one socket and descriptor 3 is a socket that was not passed, or the daemon's own and no socket. |
| C106 | partial | False for entries larger than 4096 bytes (C106_false_large_entry), without a shell (C106_false_no_shell, C106_false) or not UTF-8 (C106_false_not_utf8). Proved for all others; and that nobody gets what is in another entry. |
| C107 | partial | False if the shell does not read what the client had typed (C107_false), and for ever if a shpool detach comes after a late acknowledgement (C107_false_detach). Proved otherwise: the request can end from every state (C107_ends_partial), and it does end in every infinite execution in which threads that can run for ever do run, waits end at their time limits and a thread that finds the mutex free again and again gets it (C107_fair_partial). |
| C108 | partial | False: a key pressed while the shell exits can make the client be told 0 (C108_false). Proved up to failures of reading and writing, and malformed keybindings; never two statuses. The reasons for a wrong 0 are exactly malformed keybindings and a failing write to the closed terminal (C108_cause, C108_each). |
| C109 | partial | False: after a failed write of a key (C109_false), or when the heartbeat notices the end before the supervisor (C109_false_race). Proved if the supervisor noticed the exit and nothing failed; sessions of running shells are never removed this way. C109_exact: the session is removed if and only if the request ended without an error and its supervisor had noticed the exit. |
| C110 | proved | Fully proved; the client's bytes are items without structure here (the scan for detach keys is C14-C17). |
| C111 | proved | Fully proved against an independent reader for JSON (RFC 8259) in Json/Spec.lean; serde_json's printer is modelled from its documentation. |
| C112 | partial | False for the output without --json if a value has a newline (C112_false). Proved for --json, for var get, and for texts without such characters. C112_exact: the text is that of one table only, exactly if there is no variable or a single one without tabs; C112_two: with two or more it is always also that of a single variable. |
| C113 | partial | False if the connection ends in the middle of an event (C113_false): the piece is printed as a line. Proved for all lines but such a last one. Exactly: all lines printed are events iff what the subscriber got is a row of whole events but for perhaps the last newline (C113_exact). |
| C114 | partial | False: the daemon waits 200 ms for the request, so the user has to press enter within that time (C114_false). Proved exactly for which times it works (C114_quick_partial), and that what is typed afterwards is left for the shell. C114_repaired: if the client dialled again after the answer, the time the user takes would not matter. |
| C115 | partial | False for a signal that arrives while the handlers are being installed (C115_false): it is lost. Proved for all later signals (C115_first_partial; C115_fair_partial: in every fair execution the daemon ends), for the second one, and that nothing else ends the daemon. C115_exact: the first signal ends the daemon if and only if it arrives before anything is registered for it or after everything is. |
| C116 | partial | False: an attach request takes a second read guard of the configuration while it holds one (build_shell_env; start of the output thread); if the watcher asks for the write guard in between, both wait for each other for ever (C116_false, C116_false_new), and so does everything that looks at the configuration later (C116_forever, C116_forever_attach). Proved exactly for the other states (C116_exact_partial). A daemon that was started automatically never reloads (C120). In every fair execution in which that state is not entered everything asked for is done and every change of the files is dealt with (C116_fair_partial, C116_fair_reload_partial). |
| C117 | partial | False: the configuration is read again and again during a request (C117_false, C117_false_spool). Proved for what is read under one guard (environment, scrollback), and that versions never go back. Exactly: what a thread reads is of different versions iff a reload falls between two of its reads (C117_exact); C117_read says which versions it has been given. |
| C118 | partial | False: the paths are resolved once, so making a link lead elsewhere is not noticed (C118_false, C118_false_directory), nor is creating the target of a dangling link (C118_false_dangling). Proved for edits, replacement, removal and creation of the file itself, at its real place. C118_exact: a change that makes a difference to what is read is noticed if and only if it is made to the real file. |
| C119 | partial | False: if the system-wide and the user's configuration are the same file by way of links, watching the second is an error and every shpool command fails (C119_false). Proved that this is the only case (C119_exact_partial). |
| C120 | partial | False: the thread that watches the configuration is started before the daemon forks into the background, so a daemon that was started automatically has none and never notices an edit (C120_false, C120_frozen). Proved for daemons that do not fork (C120_follows_partial, C120_quiet_partial). Exactly: a serving daemon can come to use a good file by its own steps iff it was not started automatically or already uses it (C120_exact). |
| C121 | partial | False: if the fork happens while the watcher reloads, the child has a lock that nobody lets go of (C121_false, C121_stuck). Proved that this is the only case (C121_exact_partial). |
| C122 | partial | False: every command loads the configuration first and fails if it cannot (C122_false, C122_nothing_works). Proved for a configuration that can be read, e.g. one named on the command line. C122_exact: a command gets to a running daemon if and only if the configuration it loads can be read. |
| C123 | proved | Proved as stated. C123_exact: a command starts a daemon exactly if it talks to one, was not told not to (`-D`), was told to (`-d`) or the configuration does not say otherwise, none answers on its socket, and starting it is possible at all. C123_same: a daemon that is started is told to use the socket that the command uses and the configuration file that the command was given. C123_waits: a command that started a daemon goes on to its work only if the daemon has come up. |
| C124 | partial | False for a relative path: the daemon changes its directory to the root before it binds (C124_false), so that the command fails (C124_false_fails). Proved exactly when it holds (C124_exact_partial). |
| C125 | partial | False: an error of a subcommand only goes to the log, which clients do not have by default (C125_false, C125_false_ttl, C125_false_refused). Proved exactly which failures are silent (C125_exact_partial). |
| C126 | partial | False: a detach while a program uses the alternate screen leaves the terminal in it (C126_false). Proved that the client adds nothing of its own, so that the terminal has exactly the modes that the session's output leaves (C126_exact_partial, C126_undone_partial). |
| C127 | partial | False: the interval is the one of the start of the daemon (C127_false, C127_false_removed); a pager that fails uses up the interval (C127_false_used_up); an edit between the two looks at the mode makes the attach fail (C127_false_race). Proved as long as the interval is not edited (C127_follows_partial), and exactly when the attach fails (C127_fails_exact_partial). |
| C128 | partial | False: the daemon only notices when there is something to write, so without events any number of dead connections is held (C128_false, C128_false_unbounded). Proved that one iteration of the loop with something to write forgets it (C128_forgotten_partial). C128_exact: an iteration forgets it exactly if something was waiting to be written to it or an event is taken. |
| C129 | partial | False: the timeout limits each read, not the request; a client that sends a byte now and then keeps its thread as long as it likes (C129_false, C129_false_any). Proved: at most the timeout per byte (C129_bound_partial), noticed one timeout after the client's last action (C129_silent), exactly which requests are read (C129_read_exact). |
| C130 | partial | False: the list of sessions is written with the session table locked (C130_false). Proved exactly who is not held up (C130_exact_partial), that nobody is if the answers fit into the sockets (C130_fits_partial), and a bound (C130_bound_partial). |
| C131 | partial | False: if the system refuses a thread, the daemon panics (C131_false, C131_false_any). Proved that this is the only case (C131_exact_partial, C131_up_partial). |
| C132 | proved | C132_fair: in every fair execution what the daemon has sent to a client is shown, unless the client's output thread has ended or one of its threads has failed. Needs that the frames fit the reader's buffer (they do: C01, C24). |
| C133 | proved | C133_fair: in every execution in which the daemon's reader gets turns, all that the client has sent by some time is written to the shell, except a rest that is a proper beginning of a key binding. |
| C134 | partial | False for descriptors above 2 that are not marked close-on-exec: they are inherited by the launched command and never closed (C134_false, exactly those: C134_rest_partial). Session, group, terminal, directory and the standard descriptors are proved. C134_repaired: if the client marked its descriptors above 2 close-on-exec, the daemon would have nothing of what launched it. |
| C135 | proved | Proved as stated. C135_own_name: A client is only ever connected to a session created under the name it asked for, from selecting the session to the end. C135_table: The table shows every session under the name it was created with. C135_name_stays: A session keeps the name it was created with for ever. C135_separate: A step that is not about a name changes nothing of the sessions with that name. C135_stretch: Along a whole stretch of history none of whose steps is about a name, nothing of the sessions with that name changes, and the list shows the same line for it. C135_depends: What a step about one name does depends on nothing but the sessions with that name and the requests for it: if two histories agree about them, it is possible after the one if it is after the other (by a client that has not asked for anything before) and they agree afterwards. C135_replies: So do the replies to kill and detach requests about that name. |
| C136 | partial | False if the terminal had just one row and one column more than that of the client that comes back, and this one is enlarged to that size within 50 ms (C136_false). Proved that this is the only case (C136_exact_partial), when and how often the programs are told (C136_jiggle_partial, C136_soon_partial). |
| C137 | partial | False: the ttl reaper removes a session whose shell it cannot kill (C137_false), and shells are lost when attach requests race, when a shell-to-client thread ends before its shell, and when a request removes a session by its name (C137_false_race, _thread, _name); lost shells stay lost (C137_for_ever). Proved for all other histories, and for kill always. C137_exact: a running shell is unreachable if and only if one of these steps has happened to it. |
| C138 | proved | Proved as stated. C138_output: what the pager prints reaches the client, in order and unaltered: it is what the client was sent, then at most one piece that is being written to the client, or could not be written to it, then what was not read yet. C138_input: what the user types reaches the pager, in order and unaltered: it is what the pager has read, what waits for it in its terminal, then at most one piece that is being written to the terminal, or could not be because the pager was gone, then what was not read yet. C138_hangup: the client is told that it hung up only if it did. |
| C139 | partial | False: if the thread that waits for the pager tells of its exit before the pager's last output has been read, that output (which gives back the screen) is not shown (C139_false); input found ready together with the last output goes to the pager that has exited (C139_false_input). Proved: what is not shown is exactly what was not read (C139_not_shown_partial); nothing if the end is noticed by the end of the terminal (C139_shown_partial); what is typed when the client is not read any more is left (C139_left_partial). C139_repaired: if the display ended only at the end of the pager's terminal, everything printed would have been shown. |
| C140 | partial | False: after the last wait (640 ms) there is no look whether the pager has exited, so SIGKILL can go to a process that was given its number (C140_false). Proved: the pager has ended (C140_gone), the order and time of the signals (C140_escalates), no signal to a pager known to have exited (C140_spared), and all signals hit the pager as long as its number is not reused (C140_own_partial). C140_exact says exactly when another process is sent SIGTERM or SIGKILL. |
| C141 | proved | Proved as stated. C141_fair_ending: once `display` is ending, for whatever reason, it returns. C141_fair_exit: once the pager has exited the attach goes on, whatever the client types. C141_fair_gone: once the client has gone the request goes on (and finds that it has), and the pager is gone then, even if it ignores SIGTERM. C141_stays: the message stays as long as the pager runs, the client is there and nothing fails. |
| C142 | proved | Proved as stated. C142_bounded: whatever the shell prints, or does not print, the wait is over 90.5 seconds after it began, but for the time that the last round takes besides `poll`. C142_ends: it does end: when 90 seconds have passed it does not go on. C142_silent: a shell that prints nothing, and does not end, is waited for exactly so long. C142_sound: the wait ends well only if the shell has printed the marker. C142_takes: what the shell prints meanwhile is taken by the wait; it stops at the piece with the marker and leaves the rest for the user. C142_prompt: once the shell has printed the marker (not directly after a beginning of the marker) within 90 seconds the wait is over in the same round: it is not waited any longer. C142_shell_ended: a shell that ends (its terminal is closed or cannot be read any more) is not waited for. |
| C143 | partial | False: a request that fails after the session was chosen (the link to the ssh agent's socket, the file with the session's variables, the pager) leaves the connection in the session, open, and its client waits (C143_false), even after the shell has exited, until somebody attaches to the session or kills it or its time is up (C143_false_for_ever). Proved: a client that is refused as busy is always let go (C143_busy); as long as no request is cut short every open connection is attended by a request that is not over (C143_attended_partial), and if attach requests for one name do not race either, the connection of a request that is over is closed (C143_closed_partial). A client that is told to leave by a thread that does its work is let go in that very step (C143_at_once); when the thread does not take the message, the request closes the connection itself (C143_unsent). |
| C144 | proved | In every history, also with requests cut short and racing: who keeps an open connection (C144_kept), a session that is gone keeps none (C144_gone), at most two per session (C144_bound). |
| C145 | partial | False (C145_false, C145_false_for_ever): an attach that has just made a session locks the table and then waits for the session; if somebody else has attached to it in between and leaves, that one waits for the table. That is the only place: all programs take locks in one order but for it (C145_circle_partial, C145_rest_partial). Fully true when no attach that makes a session finds one of another attach afterwards, with any number of other requests about any sessions (C145_apart, C145_rest). Missing from the partial ones: that place. With a try for the session at that place instead of waiting for it, the claim would hold in full (C145_repaired). |
| C146 | proved | Strong fairness per thread (a thread that can go on again and again does so at some time), induction over the order of the locks; work between locks is assumed to end, idling is not. The condition (Apart) is stated in the property; without it C145_false_for_ever applies. |
| C147 | partial | False for each shell. bash with PROMPT_COMMAND: hooks are told status 0 (C147_false_bash_status), elements of PROMPT_COMMAND after the first are run once more after the prefix was added and can wipe it out (C147_false_bash_list), a prompt set by a command is gone at the next prompt (C147_false_bash_set); zsh: likewise with or without hooks (C147_false_zsh_set), and a prompt set by the function precmd is undone (C147_false_zsh_precmd); fish: the user's prompt is told status 0 (C147_false_fish_status). Proved: exact for bash without hooks, bash with one hook that does not look at the status, zsh with any hooks in precmd_functions, fish with a prompt that does not look at the status, as long as commands leave the prompt alone; in zsh the prefix is there whatever is set (C147_zsh_prefix_partial). The programs whose meaning is given are those in the text (C147_script_*). The meaning of the few forms of shell commands used is trusted. C147_bash_exact: exactly which prompts bash shows with any number of hooks: all are run, told status 0 first, the prefix is put there, and all but the first are run again. |
| C148 | partial | False: the file is made with File::create, which empties it, and is not opened for appending. A client given the log file of a running daemon, or a second daemon launched at the same time with the same daemonized-shpool.log (before it finds that the socket is taken), empties it (C148_false, C148_emptied_partial: the first one's next message then comes after a hole of zero bytes), and two writers write over each other (C148_false_overwritten). Proved: while no other process opens the file it holds exactly the messages of its owner. Opened for appending and not emptied, the file would keep all messages of all its writers, whole and in order (C148_repaired). |
| C149 | proved | Proved as stated. C149_stderr: A daemon without log file writes to its standard error just the messages of the levels seen with the level last asked for: by a request since it started, else by the count of `-v` it was started with. A client without log file writes none of its messages anywhere, so none gets into the user's terminal. This holds however many other processes run, with or without log files. C149_hidden: A message that the level asked for hides leaves no trace, in whatever state things are: not in any file, not on any standard error, not in where later messages go. C149_set: Whatever daemon is asked, and whatever its level was, it then has the level asked for; no other process is touched. C149_monotone: More is seen with a more talkative level: what a level shows is shown by each level after it. |
| C150 | partial | Not proved as stated, and false (C150_false): the session name is typed as part of the prompt prefix, and SHPOOL_PROMPT_SETUP_SENTINEL is an accepted name; in such a session the hiding ends at the echo of the prefix and the user sees the rest of the script. Proved (C150_hidden_partial, C150_default_partial): if the marker is in none of prefix, name, start command and path of the binary, and these have no control characters but line ends, exactly what comes after the marker line is shown, provided the shell's own output meanwhile does not have the marker in it or end in a character of the marker. C150_startup_partial: the echo of the first command is not taken for its output. C150_says_partial needs a path without characters special to a shell (see C82). The echo (ECHO, ECHOCTL, ONLCR) is that of the kernel; line editors that redraw the line are not modelled. C150_typed_exact: the marker is in what is typed if and only if the user put it there (prefix with the name in it, start command, path of the binary). |
| C151 | partial | Not proved as stated, and false (C151_false): the client closes its attachment and then asks for the session to be detached by its name; whoever attaches in between is disconnected by that, although nobody used --force. Proved (C151_alone_partial): if no other request for the name is under way from the moment the background request is taken up, nobody loses an attachment; (C151_left, without conditions): the detach request leaves list, shells, owners and sessions of other names as they are and the named session without client; (C151_given_back_partial): under fairness the daemon's thread ends and gives the session back, if requests creating a session do not race. Exactly: the request takes another's attachment away iff that is served by the session that has the name now (C151_exact). |
| C152 | partial | Not proved as stated, and false (C152_false): the session is detached once only; whoever attaches before the next try keeps the forced client out, and after its tries it reports a terminal that could not be detached, although that one has long gone. Proved: a client that gives up has had 22 requests refused (C152_tries); a request for a session nobody has is not refused (C152_free); if nobody else asks for the name since the first refusal, every later refusal is because the same request still has the same session (C152_same_partial). Exactly: a request is refused iff some request has the session of that name then, and that is one only (C152_exact). A forced client makes at most 22 requests and does not try for ever (C152_bound). |
| C153 | partial | Not proved as stated, and false (C153_false): the table is locked during the request but the sessions are not; if two clients are leaving, the list can tell of the one that left first that it is attached and of the other that it is not (C153_false_ever: this was never the case). Proved: everything but the status is right at every moment of the request (C153_fixed), each line is right at some moment (C153_each), a line that says attached was right at the beginning and one that says disconnected is right at the end (C153_between); the whole is of one moment exactly if any two lines are (C153_exact_partial), in particular if at most one client leaves meanwhile (C153_one_leaves_partial). |
| C154 | partial | Not proved as stated, and false (C154_false, C154_false_size): the thread that handles SIGWINCH is started before the attach request and names a session in its request; the daemon does not ask who sends it. A client that is refused as busy or waits to take over (--force), one that has just been detached (C154_false_former) and one that follows its template to a session somebody has (C154_false_switch) resize the session of the attached client, which keeps the wrong size until its own terminal is resized. Proved: exactly who can (C154_who_partial: a client aimed at this session whose terminal was resized since it was started), so nobody else if there is no other such client (C154_alone_partial); and if all resize requests come from the client that has the session and none fails, every session has the size of its client's terminal whenever no signal is being handled (C154_follows_partial). Exactly: resizing the terminal of a client can resize a session somebody has iff that client runs and was started for it or is on its way to it (C154_exact). |
| C155 | partial | False: the size listener has the bare number of the descriptor. The number is closed by the destructor of each of the two handles, that of the thread that waits for the pager to exit (even while the pager is still shown, C155_false_shown) and that of display, which is dropped before the slot is freed; a size sent at that moment (or, if the request gave up waiting, at any later time) is set on whatever has been given the number since, e.g. the terminal of another session (C155_false, C155_false_acknowledged, C155_false_later). Proved: it holds until the terminal is closed (C155_partial), in particular as long as the pager runs and is shown (C155_runs_partial); nothing else is touched if nothing is opened after that (C155_reuse_partial); with a process number instead of a clone and the other order of declaration it would hold if no request gives up waiting (C155_order; C155_order_timeout shows that this is needed). That the destructor of a clone closes the descriptor is said in a comment of server.rs (1028-1037); the destructor is in the crate shpool_pty. Exactly: C155_exact gives the histories in which a size is set on something else: that was opened under the number after the terminal was closed, and still had it. |
| C156 | partial | False: if a request gives up waiting for the acknowledgement the listener waits for ever to deliver it, and no size is taken any more while this pager is shown (C156_false, C156_stuck_forever). Proved without such a request, while the pager runs (C156_partial); an acknowledgement is always for the request that gets it (C156_own). C156_exact: a size can be set if and only if no request has ever given up waiting for its acknowledgement. |
| C157 | partial | False: the thread that waits for the pager has a clone of the handle, whose destructor closes the descriptor (server.rs 1028-1037 avoids the same for shells) while display goes on with the bare number: it can read another file and send it to the client (C157_false), write what is typed to another file (C157_false_write), and the second destructor closes whatever has got the number in between, in either order (C157_false_close, C157_false_close_monitor); there always is a second closing (C157_twice). Proved: it holds until the first closing (C157_partial) and afterwards if nothing is opened (C157_reuse_partial); at most one read and one write go wrong (C157_bound); with the process number instead of a clone it would hold (C157_repaired). Exactly: C157_exact gives the histories in which something else is read, written to or closed: that was opened under the number after the terminal was closed, and still had it. |
| C158 | partial | False: when a session is dropped its terminal is closed, but its thread has the bare number and looks at its channels only once per turn; a new session's terminal that gets the number can be read (its output is lost) or resized (C158_false, C158_false_size), any number of times as long as some request has a reference to the control channels (C158_false_many). Proved: it holds until the session is dropped (C158_partial) and afterwards if nothing is opened (C158_reuse_partial); without such a request at most one read and one resize go wrong (C158_bound) and the thread ends (C158_ends). Exactly: C158_exact gives the histories in which something else is read or resized: that was opened under the number after the terminal was closed, and still had it. |
| C159 | partial | False: neither loop does anything about a failed accept but write to the log, and accept(2) fails at once if there is no free number, even if nobody waits (C159_false; the events sink with a waiting subscriber: C159_false_events); both go round, and write to the log, without end (C159_for_ever). Proved exactly when they come to rest (C159_exact_partial) with a bound (C159_rests_partial), that all the work beyond it is failed accepts (C159_work_partial), that nobody is lost and the order is kept (C159_none_lost), and that all who wait are accepted once numbers are free (C159_fair). |
| C160 | partial | False: the number of each name ever registered is kept for good (C160_false, C160_names_for_ever), and deadlines of sessions that are gone stay until they have passed, any number of them (C160_false_heap). Proved exactly what is kept of names (C160_names_exact); that a reaper with nothing to do keeps only deadlines that have not passed, each registration once (C160_heap_partial); that in every fair execution every deadline is forgotten (C160_fair_partial); and that at most ten registrations are under way (C160_mail, C160_mail_full). |
| C161 | partial | False: each attach sets the terminal to raw mode and gives its settings back at its end, so between two sessions they are the former ones: return becomes newline (C161_false), the interrupt key ends the client (C161_false_interrupt), backspace edits (C161_false_erase). Proved for plain characters, whatever the settings (C161_plain_partial; which these usually are: C161_plain), and always if the client is not on a terminal (C161_pipe); the order is kept (C161_order), and after the hint at most one more piece goes to the old session (C161_one_more). Exactly, with the usual settings: it holds iff none of ^C, ^\, ^Z, return, ^D, backspace, ^U is typed between two sessions (C161_exact). |
| C162 | partial | False: a heartbeat that finds the client gone ends the request, and what was not read by then is thrown away (C162_false). Proved if no heartbeat falls between (C162_partial); what is thrown away is always an end of what was sent (C162_end_only), and never the piece the reader was waiting for (C162_next). C162_repaired: a daemon whose reader reads to the end of the connection loses nothing. Exactly: something is missing iff the reader, having written a piece, found the request ending while there was more to read (C162_exact). |
| C163 | partial | False: poll returns EINTR when its thread takes the signal of a resize, and the client takes that for an error of its input and exits with status 1. Linux gives the signal to another thread than the main one when the main one is still in the handler for the last resize, so two resizes in quick succession can end the attach (C163_false, C163_false_exit); with what POSIX promises, one can (C163_false_posix). Proved if no resize comes while the main thread is in the handler (C163_partial); nothing else than such an interruption is the cause (C163_cause); the status is then 1 (C163_status). No resize is forgotten whichever thread is interrupted (C163_told, C163_told_fair). C163_repaired: a client that calls poll again stays attached always. |
| C164 | partial | False: nothing asks where a client runs. `shpool attach -f` with the name of the session it is run in makes the session its own client, and two detached sessions can come to show each other without force (C164_false_unforced). C164_exact: an attach does it exactly if following the clients from where it is made comes to the session. C164_for_ever: once something is printed in such a circle, it is relayed without end and never comes out. C164_partial: holds if no attach is forced and each is made where a user sits outside. Comparing with SHPOOL_SESSION_NAME would not be enough (C164_own_not_enough); a daemon that follows the clients would be (C164_repaired, C164_repaired_refuses_no_more). Where following the clients does come to a terminal, what is on its way stays in order until it is shown (C164_in_order), and can be shown by relaying alone (C164_comes_out). |
| C165 | partial | False: what is ignored stays ignored over exec, and the daemon resets only SIGTERM, SIGINT, SIGQUIT (it handles them) and SIGPIPE (Rust's library does). After `nohup shpool daemon` sessions ignore SIGHUP, so that `shpool kill` has to use SIGKILL (C165_kill); with SIGCHLD ignored clients are told exit status 1 for every session (C165_status). C165_exact: exactly these signals. C165_partial: holds if whoever started the daemon ignores at most those four; no signal is ever blocked (C165_mask). C165_repaired: would hold if the child set every signal to its default. |
| C166 | partial | False: the picture is set up for the size in the request that creates the session, while the terminal gets the size the client has after the message of the day was shown in a pager. If it was resized meanwhile the two differ (C166_false) and stay different until the next resize or attach (C166_false_lasts). C166_exact: exactly then. C166_partial, C166_later: holds without such a resize, and from the next request on. C166_repaired: would hold if the picture were set up for the size of the first client handed over. |
| C167 | partial | False: the command that prints the marker is typed after the start command, so a start command that reads the terminal or throws away what was typed ahead swallows it (C167_false, C167_false_others), likewise the start files, and a daemon that gives up; then nothing is ever shown (C167_for_ever). While a start command runs that does not come back nothing is shown either (C167_false_runs). C167_cause: these are the only causes. C167_partial, C167_fair_partial: holds, and comes about, if start files and start command leave the input alone. C167_repaired: typing the marker's command first would make it hold for all start commands. |
| C168 | partial | False unless the crate shpool_pty opens master sides close-on-exec (not known from the repository): the loop that closes descriptors in the child stops at 4, so the shell of a later session has the master sides of the terminals of the sessions there were (C168_exact), and killing one of those does not hang its terminal up (C168_false); a program that ignores hang-ups keeps all earlier sessions' terminals from being hung up, also after the daemon has ended (C168_false_daemon, C168_false_for_ever). C168_partial: holds with close-on-exec. C168_fair_partial: if no process ignores hang-ups or leaves its terminal, everything ends after the daemon has ended, whatever was inherited. C168_repaired: a loop up to the real limit would do. C168_not_before: no terminal is hung up while its session is there. |
| C169 | partial | False: the files are made after the shell has been started and waited for, so its start files and the start command find nothing or what a former session of that name left (C169_false, C169_false_start, C169_false_former); a client without an agent leaves the link to the agent of an earlier one (C169_false_agent). What a client forwarded stays in the directory when the session is gone (C169_false_left). C169_partial: right for a client that has been given the session, but for the missing agent. C169_agent: whose agent it is otherwise. C169_repaired: would hold if the files were made first and old links removed. Exactly, for a client that has been given the session: right iff it has an agent or no client of that name ever had one (C169_exact). |
| C170 | partial | False: while its user reads the message of the day in the pager a client is shown as attached, and every detach request changes nothing and is answered that nobody is attached, for ever (C170_false, C170_false_for_ever, C170_lost); a forced attach gives up (C170_false_force). Proved: the list shows what some request has (C170_shown); a detach request ends a request that streams, in every fair execution in which requests creating a session do not race (C170_partial); one for a session not shown as attached changes nothing (C170_disconnected); as stated if detach requests also reached such requests (C170_repaired). That the streaming of a client taken from the session's thread ends is one step here; see C107 for when it does not. |
| C171 | partial | Not proved as stated, and false (C171_false): a session that was started, last connected or last disconnected while the clock showed a time before 1970 makes every list request fail (C171_false_all: other sessions are not listed either); and a clock that is set back makes the list tell of an attached session that its last disconnection came after its last connection (C171_false_order). Proved: the list is refused exactly in that case (C171_exact), as long as such a session is there (C171_stays; the time it was started does not change, C171_started); otherwise it tells of all sessions (C171_tells_partial); the order is right for all histories exactly if the clock never goes back by a millisecond (C171_order_exact); killing those sessions helps (C171_kill). |
| C172 | partial | False (C172_false): NotAttached, which the protocol documents as the answer for a session without a terminal attached, is never sent; a resize or detach of such a session is answered Ok. C172_false_replaced: a resize can be answered Ok though the session now having the name kept its size. Proved for all interleavings: NotFound, Ok to a resize and Ok to a detach are only said if true at some moment of the request (C172_true_partial); if the name stands for the same session throughout and no pager is shown, the size asked for is in force when Ok is said (C172_same_partial); only sessions that had the name are touched (C172_others). Over time: in every strongly fair execution every session message is answered or its request ends (C172_answered). It would hold if the request looked whether the session has a client when it looks the name up (C172_repaired). |
| C173 | partial | False (C173_false, C173_false_for_ever): the thread looks at the shutdown pipe only when it has found the channel empty, so the owner waits for ever while others publish fast enough; and events published before the bus is let go may not be broadcast, as the shutdown pipe is looked at first (C173_false_delivery). Proved: the owner is through exactly if the thread does not pass on events for ever (C173_exact), so always if nobody publishes any more, as when the start of the daemon fails (C173_ends_partial); then nobody is connected, nobody can connect and the socket file is gone unless it could not be removed (C173_closed); publishers never wait and the loss is logged once (C173_publish); what a subscriber misses is exactly what had not been taken from the channel (C173_missing); a failed write to the shutdown pipe leaves the owner waiting as long as anybody has the bus (C173_unheard). Not lost is what is published by the time the thread passes on events (C173_passed_on). Looking at the shutdown pipe before each event is taken would let the owner through always (C173_repaired). |
