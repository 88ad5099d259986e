# Formal model of shpool in Lean 4

Source under study: `/repo` (shell-pool/shpool, pinned commit), read as text only.
Model and proofs: `/verif/lean/Verif/**`.  Properties: `properties.jsonl`.  Claim status: `MANIFEST.json`.

## 1. Trusted base

* Lean 4.33.0's kernel.  Every theorem depends at most on `propext`, `Classical.choice` and `Quot.sound`
  (checked with `#print axioms`, `tools/check_axioms.sh`; see section 5).  No axioms of our own, no `sorry`, no `native_decide`,
  no `bv_decide`, no `unsafe`/`implemented_by`.
* The reading of the Rust code.  Nothing is extracted mechanically: each Lean definition carries a comment with the
  file and lines it models, and any simplification is named there.  The code is never run.
* Behaviour assumed of things outside the repo, always as an explicit parameter or an explicit modelling comment:
  a Unix stream socket is a reliable ordered byte stream cut at arbitrary points; `read_exact`/`write_all` loop until
  done; a mutex admits one holder; a bounded channel is a FIFO; `HashMap` is a finite map; `Instant` is monotone;
  the terminal-emulation crates (`shpool_vt100`, `vterm`) are an uninterpreted fold over the output bytes;
  MessagePack encoding (`rmp_serde`) is an uninterpreted injective function; TOML parsing is uninterpreted.

## 2. Layout

For each area there are up to three kinds of modules:

* `Verif/<Area>/Model.lean`  - the code, function by function, with citations.
* `Verif/<Area>/Spec.lean`   - (where needed) an independent specification that does not use the model's helpers.
* `Verif/<Area>/Lemmas.lean` - helper lemmas.
* `Verif/<Area>/Props.lean`  - only the property theorems (named `Cnn_...`), each with an `example` showing its
  hypotheses are met by a concrete non-trivial case, and negations with concrete witnesses where the code violates
  the property.

Naming: a theorem `Cnn_..._partial` proves a restricted form (restriction stated in its comment);
`Cnn_..._false` / `Cnn_not_...` proves that the unrestricted property fails for the code as written.

## 3. Plan per property

| id | model | proof |
|----|-------|-------|
| C01 | `Chunk.encode` / `readInto` on byte lists | round trip, all payloads and suffixes |
| C02 | pull reader over a list of segments, `read_exact` loop | segment reader equals flat reader; induction over frames |
| C03 | same `readInto` | case analysis, exact consumption |
| C04 | `Chunk.encode` | corollary of C01: prefix-freeness, injectivity of concatenation |
| C05 | emitters of the shell->client thread with payload sizes | false: witness for switch/motd frames above 16384; `_partial` for data, heartbeat, exit, restore |
| C06 | `versionOrd` on strings | compare of keys; total preorder laws |
| C07 | node-vector trie with cursors | refinement to an association list; invariant by induction over inserts |
| C08, C09 | lexer, parser, validity check | round trip from an independent grammar; rejection characterisation, `_partial` where the lexer is too lax (witness) |
| C10 | control code table | finite table against ASCII arithmetic; x/y swap is a witness of falsity, `_partial` for the rest |
| C11, C12 | binding engine = two trie cursors | soundness by invariant (cursor = typed suffix); completeness false in general (witness), `_partial` from idle |
| C13-C17 | keystroke filter loop and `snip_buf` | invariant per byte over the buffer; falsity witnesses for the off-by-one and detach cases |
| C18-C23 | shell->client thread as a labelled transition system | trace invariants by induction over events |
| C24 | client pipe threads as LTS | invariant over interleavings |
| C25-C27 | `duration.rs` on char lists with u64 semantics | arithmetic; falsity witness for overflow and junk acceptance |
| C28-C30 | `template.rs` on char lists | parse/unparse, exact grammar |
| C31 | `etc_environment.rs` on char lists | per line function |
| C32, C33 | config record merge; manager state machine | field-wise lemma; history induction |
| C34, C35 | watcher state machine | timed trace invariant; falsity witness for the lossy re-watch, `_partial` |
| C36, C37 | name checks and path join | component-wise containment; equality of predicates |
| C38-C40 | env vector building, `Command::envs` last-wins | lookup characterisation; witness where TERM can be overridden |
| C41, C42 | decision functions | case analysis |
| C43 | vars map | refinement by history induction |
| C44-C50 | daemon LTS: attach/kill/detach/list threads, table lock, per-session lock | invariants over all interleavings; falsity witnesses (races), `_partial`; C48 also over fair infinite executions |
| C51-C54 | events bus LTS: publishers, channel, wake pipe, sink, subscribers | trace invariants; falsity witness for C54 |
| C55-C57 | reaper LTS | heap minimality, generation invariant; falsity witness; for C57 also fair infinite executions with two ranks (registrations not yet received, deadlines not yet dealt with) |
| C58 | latch | induction |
| C59, C60 | attach client loop | induction over replies |
| C61 | handle_conn decision | case analysis |
| C62 | list output | list lemma |
| C63 | backoff sums; pid-file lock LTS | arithmetic + invariant |
| C64, C65, C66, C67, C68, C69, C70 | small state machines / functions | case analysis and induction |
| C71, C72 | variables the client sends; list output | list lemmas; falsity witness for line feeds |
| C73, C74 | file list of the configuration manager | case analysis; falsity witnesses |
| C75 | shell->client thread with a changing configuration | reachable panic (witness); invariant otherwise |
| C76 | rendezvous of requester and thread, all timeouts | wedged states are reachable and permanent; recovery under timely acks, also over fair infinite executions (the rank is the phase of the thread) |
| C77 | process table with reuse of numbers | witness; invariant while not reaped |
| C78, C81, C82 | injected scripts, shell quoting specification | string induction; falsity witnesses |
| C79 | waiting loop against a start-up time | exact bound |
| C80 | clock readings | witness; arithmetic |
| C83 | descriptor loop | exact characterisation |
| C63, C84, C85 | LTS of daemons and clients on the control socket, events socket and pid file | invariants over all interleavings; falsity witnesses |
| C88, C90 | terminal flags as bit vectors; attach process as a recursive function over rounds | bitwise specification of raw mode; induction over rounds; falsity witnesses |
| C89 | LTS of terminal, signal thread, main thread, sessions | invariant with a ghost bit for overtaking; falsity witness |
| C91, C92 | LTS of the session table (as C44–C50), its events | invariants relative to the state listed in; absorbing bad state; falsity witnesses |
| C93, C95–C98 | starting a shell as a function of request, configuration, environment and what the system answers | case analysis, list lemmas on paths and environments; falsity witnesses |
| C94 | status words of waitpid, frame, client; LTS as for C107 | arithmetic on status words; composition with the round trip of C02; invariant over undisturbed runs; falsity witness |
| C87, C99, C100 | permission bits, umask, LTS of concurrent requests making directories and files | bit lemmas, invariants over all interleavings; falsity witnesses |
| C101 | text of forward.env against a specification of a fragment of the shell language | string lemmas; falsity witness |
| C102, C103 | MessagePack and the codecs of all messages | combinators proved lawful (round trip with any suffix), composed; reading lemmas for maps with unknown, missing and reordered fields; falsity witnesses |
| C104 | LTS of the session table with pending hook calls | per-request trace invariant; uniqueness invariant for taking turns; falsity witnesses |
| C105 | table of descriptors, lowest free number | characterisation of the parsed variable; induction over what is opened; falsity witness |
| C106 | user database lookup with a fixed buffer, composed with starting a shell | case analysis; falsity witnesses |
| C107–C110 | LTS of the threads of one attach request, its client, shell and other requests | invariants with history; a rank that internal steps can always decrease; for C107 also liveness over infinite fair executions (`Verif/Util/Fair.lean`): a measure that comes to a rest, and a step that fairness then forces; falsity witnesses |
| C111–C113 | printer of serde_json, the output of list, var and events | round trip with an independent reader of JSON; falsity witnesses |
| C114 | client prompt and daemon time-out with a clock | exact characterization by cases; falsity witness |
| C115 | LTS of the signal handlers and the signal thread | invariants; possibility of ending, and ending in fair infinite executions (rank: files left); falsity witness |
| C116, C117 | LTS of the read-write lock of the configuration, with the programs of all its users | exact characterization of the states from which all can finish; invariants with history; falsity witnesses |
| C118, C119 | file systems with links; resolution of paths and what the watcher watches | lemmas on resolution (idempotent, independent of what is elsewhere); falsity witnesses |
| C120, C121 | LTS of the main thread, the watcher and forks | invariants with a free lock or a living worker; frozen states; falsity witnesses |
| C122–C125 | function from arguments and what is found to what a command does | case analysis over all commands, exact characterizations; falsity witnesses |
| C126 | client LTS of C24 with a terminal that parses private modes | from C24; falsity witness |
| C127 | messenger with the debouncer made at start, histories of requests with both readings of the mode | induction over histories; falsity witnesses |
| C128 | event bus LTS of C51 | invariant within an iteration of the loop; falsity witnesses |
| C129–C131 | timed functions of reading and writing, LTS of the accept loop | induction over the client's actions; falsity witnesses |
| C132, C133 | the LTSs of C18 and C24, the codec of C01 and the input filter of C13 composed over two byte streams | composed invariants (frames delivered = handled + in hand + on the wire), induction over steps; liveness by draining, and in every fair execution by a decreasing measure |
| C134 | functions for fork, setsid, open, dup2 on processes, `daemonize` composed of them | symbolic execution for all processes and answers, invariant over later actions; falsity witness |
| C135 | the transition system of the session table, with the name each client asked for read off the history | invariant over all runs, frame theorem for steps about other names, agreement of two histories preserved by steps about one name |
| C136 | the transition system of the shell-to-client thread, counting changes of the terminal's size | invariant since the attach, induction over the history; falsity witness |
| C137 | the transition system of the session table, the reaper's kill may fail | invariant over orderly histories; what is lost stays lost (induction); falsity witnesses |
| C138–C141 | the relaying loop of the message pager, the thread waiting for the pager, the guard that kills it: LTS of one display | invariants over all interleavings; liveness over infinite fair executions; falsity witnesses |
| C142 | the loop waiting for a new shell to run the marker command, with a clock | induction over the rounds of the loop |
| C143–C144 | the transition system of the session table with the places that have handles of a client's connection | invariants over all interleavings; counting; what is left behind stays (induction); falsity witness |
| C145 | every handler and thread as a program over all mutexes of the daemon, any number of them side by side | one order for all locks (per program), invariant over all interleavings, induction over the order; falsity witness |
| C146 | the same, infinite executions | strong fairness, induction over the order of the locks and the length of programs |
| C147 | the scripts as small programs, spelled out to the text of the source; a meaning for each form of command used; user's hooks and commands as arbitrary functions | two shells side by side, one with and one without the script, induction over the commands typed; falsity witnesses |
| C148 | the log file as bytes, each process with its own position in it; start (truncation), write at the position, end | induction over the steps while one process has the file; what a second opener does to it, in any state; falsity witnesses |
| C149 | filters, the mapping of requested levels and of `-v`, where messages go | a list of the levels seen with each request as specification; induction over the steps |
| C150 | what the marker commands print, the echo of typed text, a transcript of the terminal while the script is typed | characters that are not in the marker cut every text, so that only the user's own texts can have it; UTF-8 keeps ASCII texts apart; then C20 |
| C151 | the background client's program (ask, close, detach by name) on top of the daemon's transition system | witness for the late detach; invariant that nobody else works on the name since the request was taken up; liveness of the serving thread by rank |
| C152 | the forced client's loop (ask, detach by name once, ask again, give up) on top of the daemon's transition system | witness for the client overtaken; counting refusals; invariant that only the first holder can hold the name as long as nobody else asks for it |
| C153 | the list request taken apart (lock, one look per session, answer) on top of the daemon's transition system | witness with two clients leaving; the table is locked, so statuses can only go from attached to free: pairs of lines decide; counting releases |
| C154 | any number of clients (main thread, signal thread, terminal) and the daemon's sessions with owner and size | witnesses for refused, former and switching clients; invariant on who has a signal to handle; simulation of size and terminal when requests come from owners |
| C155 | one pager: `display`, size listener with the bare descriptor number, resize requests, table of descriptors with lowest-number allocation | witnesses; invariant while the terminal is open; counterfactual order of closing |
| C156 | the same with time limits of requests | witness and invariant of the stuck listener; a path to success otherwise; numbering of requests |
| C157 | one pager: `display` with the bare descriptor number, the thread that waits with a clone of the handle, table of descriptors | witnesses; invariant until the first closing; count of strange reads and writes; counterfactual without the clone |
| C158 | one session: its reader with the bare number, dropping the session, requests with references to its channels, table of descriptors | witnesses, one for every number of reads; invariant until it is dropped; count afterwards; liveness under weak fairness |
| C159 | The two accept loops with a limit of descriptors (Verif/Exhaust): accept takes a number first | Potential that only failed accepts raise; demand of numbers as an invariant gives the exact condition; order by history invariant; fairness for recovery |
| C160 | The ttl reaper (Verif/Reaper): its map of names, its heap, its channel | Families of histories for the negation; sublist invariant between heap and registrations; fairness for the deadlines |
| C161 | Terminal (raw and former settings, line being edited), the thread reading standard input, the switch (Verif/Switch) | Conservation invariant over histories; order by pairwise invariant; counterexample histories for special keys |
| C162 | The threads serving one request (Verif/Bidi), what the client has sent and what the shell got | Counterexample run with a heartbeat; invariant of the rest of the request otherwise; the same for a reader that reads to the end |
| C163 | The threads of the client (Verif/Pipe), with signals: which thread takes one, its handler, what an interrupted call does | Counterexample run of two resizes; invariants over runs; fair liveness for the size told; the same for a client that repeats an interrupted poll |
| C164 | Where the client of each session runs, attaches made inside sessions, and the output relayed between them (Verif/Nest) | Counterexample runs; exact condition of one attach; invariant over runs without force from rooted places; the same for a daemon that follows the clients |
| C165 | What fork, exec, Rust's start and std's Command do with signal settings, and the steps from whoever starts the daemon to the shell (Verif/Disp) | Exact characterisation by computation over all settings; counterexamples; consequences for kill and exit status |
| C166 | The operations on the restore engine in the model of the shell-to-client thread (Verif/S2C), and the two sizes a new session is given | Invariant over runs relating the last size given to the requests; counterexample; exact condition |
| C167 | The terminal's input as a queue of lines taken by the shell or by the program in the foreground; the lines the daemon types (Verif/StartCmd) | Invariant on where the marker's command is; counterexamples; all causes; weak fairness; repaired order |
| C168 | Which processes have the master sides of which terminals, from the loop that closes descriptors (Verif/Fds, Verif/Hangup) | Invariants; counterexamples; exact inheritance; weak fairness (newest session first) |
| C169 | The agent link and the variables file of one session name, and the order in which an attach makes them and starts the shell (Verif/SessDir) | Invariants over runs; counterexamples; repaired order |
| C170 | Attach requests that show a message before they stream, detach requests, forced attaches (Verif/Reading, on the session table) | Fair executions; counterexample for ever; repaired |
| C171 | Times in the list as what an arbitrary clock shows at the instants recorded in the session table (Verif/Clock) | Witnesses; exactly when the list is refused and exactly which clocks keep the order |
| C172 | Requests by name as steps over a changing session table, with the lock of the pager's slot (Verif/Message) | Witnesses; what is known of a request in each phase, as an invariant over all interleavings |
| C173 | The owner's handle, the shutdown pipe and the end of the thread around the event bus of Verif/Events (Verif/BusClose) | Invariant over all interleavings; fair executions by a rank; a publisher that never stops as witness |
| C86 | path functions | disjointness by directories; falsity witness |

Properties that cannot be expressed at all: none so far.  What is only partly expressible (real-time behaviour, kernel
scheduling fairness, terminal emulation) is named with each theorem.
