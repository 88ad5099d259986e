{"id": "C01", "title": "Frame round trip", "statement": "Any frame the daemon writes to an attached client (data, heartbeat, exit status or switch hint) whose payload fits the client's read buffer is read back by the client with the same kind and the same payload, and the reader leaves the bytes that follow the frame unread.", "quantifier": "every frame kind, every payload up to 2^32-1 bytes, every buffer at least as long as the payload, every suffix of further bytes", "why_tests_cant": "payloads and suffixes range over unboundedly many byte strings", "anchors": ["libshpool/src/protocol.rs:Chunk::write_to,Chunk::read_into", "shpool-protocol/src/lib.rs:ChunkKind"]}
{"id": "C02", "title": "Frame stream is independent of socket segmentation", "statement": "If the daemon writes a sequence of frames, the client decodes exactly that sequence of frames in that order, no matter how the kernel cuts the byte stream into read results.", "quantifier": "every sequence of frames and every way of cutting the byte stream into non-empty segments", "why_tests_cant": "the number of segmentations is exponential in stream length; tests exercise only loopback timing", "anchors": ["libshpool/src/protocol.rs:Chunk::read_into,Chunk::write_to"]}
{"id": "C03", "title": "Frame decoder safety on arbitrary bytes", "statement": "Reading a frame from arbitrary (hostile or truncated) bytes either fails, or returns one of the four kinds with a payload no longer than the caller's buffer after consuming exactly the bytes of that frame. A kind byte above 3 fails, a declared length above the buffer fails, a truncated frame fails.", "quantifier": "every byte string, every buffer size", "why_tests_cant": "the input space is all byte strings", "anchors": ["libshpool/src/protocol.rs:Chunk::read_into", "shpool-protocol/src/lib.rs:ChunkKind::try_from"]}
{"id": "C04", "title": "Frame encoding is unambiguous", "statement": "Two different sequences of frames never produce the same byte stream, and no frame's encoding is a proper prefix of another frame's encoding.", "quantifier": "all pairs of frames / frame sequences", "why_tests_cant": "quantifies over pairs of unbounded byte strings", "anchors": ["libshpool/src/protocol.rs:Chunk::write_to"]}
{"id": "C05", "title": "Every frame the daemon emits is accepted by the client", "statement": "Every frame the daemon writes to an attached client can be decoded by the shipped client, whose read buffer is 16384 bytes.", "quantifier": "all shell output, all variable tables, all message-of-the-day texts, all screen restore buffers", "why_tests_cant": "sizes of the variable table, of the motd text and of restore buffers are unbounded", "anchors": ["libshpool/src/daemon/shell.rs:spawn_shell_to_client", "libshpool/src/daemon/show_motd.rs:DailyMessenger::dump", "libshpool/src/protocol.rs:Client::pipe_bytes", "libshpool/src/consts.rs:BUF_SIZE"]}
{"id": "C06", "title": "Version comparison", "statement": "Comparing client and daemon versions is a total preorder on well formed versions x.y.z that looks at the minor number when both majors are 0 and at the major number otherwise, never looks at the patch number, swapping the arguments reverses the answer, and anything that is not three dot separated integers is rejected.", "quantifier": "all pairs (and triples) of version strings", "why_tests_cant": "infinitely many version strings; transitivity is about triples", "anchors": ["libshpool/src/protocol.rs:Client::version_ord,Client::new"]}
{"id": "C07", "title": "Trie refines a finite map with prefix status", "statement": "After any sequence of insertions, looking up a key sequence symbol by symbol yields the value most recently inserted for exactly that sequence if any; the cursor reports `partial` exactly for proper non-terminal prefixes of inserted keys and reports no-match for everything else, and stays at no-match.", "quantifier": "all insertion histories (including duplicates and the empty key) and all query sequences", "why_tests_cant": "insertion histories and queries are unbounded", "anchors": ["libshpool/src/daemon/trie.rs:Trie::insert,Trie::advance,Trie::get,Trie::contains"]}
{"id": "C08", "title": "Every keybinding in the documented grammar is understood as written", "statement": "Every keybinding spec generated by the documented grammar (chords of an optional Ctrl- and one key, separated by spaces) is accepted and yields exactly the chords that were written, whatever extra white space is used.", "quantifier": "all chord sequences and all legal spacings", "why_tests_cant": "the grammar generates infinitely many specs", "anchors": ["libshpool/src/daemon/keybindings.rs:Lexer,parse,Chord::check_valid"]}
{"id": "C09", "title": "Malformed keybindings are rejected", "statement": "A keybinding spec outside the documented grammar (unknown key, Ctrl without a key, Ctrl-Ctrl, two plain keys in one chord, doubled or dangling dash, cut off key name) is rejected with an error.", "quantifier": "all strings not in the grammar", "why_tests_cant": "the complement of the grammar is infinite", "anchors": ["libshpool/src/daemon/keybindings.rs:Lexer,parse,Chord::check_valid,Bindings::new"]}
{"id": "C10", "title": "Chords map to the bytes terminals send", "statement": "Each chord Ctrl-<key> of the documented table is bound to the byte an ASCII terminal sends for it (letter -> letter number, Space/@/2 -> 0, [ -> 27, ...), and a plain key to its own byte.", "quantifier": "all chords of the grammar", "why_tests_cant": "finite per chord, but a table test that mirrors the table proves nothing; the oracle must be independent (ASCII arithmetic)", "anchors": ["libshpool/src/daemon/keybindings.rs:CONTROL_CODES,Chord::key_code"]}
{"id": "C11", "title": "A keybinding action fires only on its own key sequence", "statement": "Whenever the daemon takes a keybinding action, the bytes most recently typed are exactly the byte sequence of one configured binding with that action.", "quantifier": "all binding configurations, all input histories", "why_tests_cant": "input histories are unbounded and reads may split anywhere", "anchors": ["libshpool/src/daemon/keybindings.rs:Bindings::transition,Bindings::new"]}
{"id": "C12", "title": "A typed keybinding always fires", "statement": "Typing the byte sequence of a configured binding triggers its action, whatever was typed before.", "quantifier": "all binding configurations, all input histories", "why_tests_cant": "requires reasoning about every matcher state reachable by any prefix", "anchors": ["libshpool/src/daemon/keybindings.rs:Bindings::transition,Bindings::new"]}
{"id": "C13", "title": "Keystroke handling does not depend on how reads are split", "statement": "The bytes that reach the shell and the actions that fire depend only on the sequence of bytes typed, not on how the socket splits it into reads.", "quantifier": "all binding configurations, inputs and segmentations", "why_tests_cant": "exponentially many segmentations", "anchors": ["libshpool/src/daemon/shell.rs:SessionInner::spawn_client_to_shell,snip_buf"]}
{"id": "C14", "title": "Input transparency", "statement": "As long as no keybinding fires, the bytes written to the shell followed by the bytes still withheld as a possible binding prefix are exactly the bytes received, in order; withheld bytes form a proper prefix of some configured binding.", "quantifier": "all binding configurations, inputs and segmentations", "why_tests_cant": "unbounded inputs and segmentations", "anchors": ["libshpool/src/daemon/shell.rs:SessionInner::spawn_client_to_shell,snip_buf"]}
{"id": "C15", "title": "A swallowed keybinding removes exactly its own bytes", "statement": "When a binding with the no-op action fires, the bytes of that binding are not delivered to the shell and every other byte typed is delivered exactly once and in order.", "quantifier": "all binding configurations, inputs and segmentations", "why_tests_cant": "boundary depends on where in a read the binding starts and ends", "anchors": ["libshpool/src/daemon/shell.rs:SessionInner::spawn_client_to_shell,snip_buf"]}
{"id": "C16", "title": "Input typed before a detach keybinding reaches the shell", "statement": "Bytes typed before the detach keybinding are delivered to the shell before the client is detached.", "quantifier": "all inputs and segmentations", "why_tests_cant": "depends on whether they share a read with the binding", "anchors": ["libshpool/src/daemon/shell.rs:SessionInner::spawn_client_to_shell"]}
{"id": "C17", "title": "The input path cannot crash the session", "statement": "No sequence of client bytes under any binding configuration makes the keystroke filter panic (slice bounds, assertion, underflow), and it never writes more bytes than it received.", "quantifier": "all binding configurations, inputs and segmentations", "why_tests_cant": "the assertion guards are data dependent", "anchors": ["libshpool/src/daemon/shell.rs:snip_buf,SessionInner::spawn_client_to_shell"]}
{"id": "C18", "title": "Output relay is lossless and ordered", "statement": "While a client is attached (its socket accepts writes and prompt setup is over), the data it receives is the restore snapshot taken at attach time followed by exactly the shell's output from then on, in order, without loss or duplication.", "quantifier": "all interleavings of shell output, resizes, heartbeats and switch hints", "why_tests_cant": "event interleavings are unbounded", "anchors": ["libshpool/src/daemon/shell.rs:SessionInner::spawn_shell_to_client"]}
{"id": "C19", "title": "Shell output survives being detached", "statement": "The text fed to the session-restore engine is exactly the shell's visible output, independent of when clients attach, detach, crash or are replaced.", "quantifier": "all schedules of client connects and disconnects", "why_tests_cant": "all schedules / crash points of clients", "anchors": ["libshpool/src/daemon/shell.rs:SessionInner::spawn_shell_to_client"]}
{"id": "C20", "title": "Prompt setup noise is hidden and nothing else", "statement": "When prompt injection is used, output up to and including the prompt sentinel is hidden from clients and from the restore engine and every byte after it is shown; without prompt injection everything is shown. The result does not depend on how the pty output is cut into reads.", "quantifier": "all shell outputs and segmentations", "why_tests_cant": "the sentinel may straddle reads in any way", "anchors": ["libshpool/src/daemon/shell.rs:SessionInner::spawn_shell_to_client", "libshpool/src/daemon/shell_inject.rs:SentinelScanner"]}
{"id": "C21", "title": "An exit frame is sent at most once and is the last frame", "statement": "On each client connection the daemon sends at most one exit-status frame and sends nothing after it.", "quantifier": "all schedules of attach, detach, takeover, shell exit", "why_tests_cant": "all interleavings", "anchors": ["libshpool/src/daemon/shell.rs:SessionInner::spawn_shell_to_client,write_exit_chunk"]}
{"id": "C22", "title": "Detach requests report what happened", "statement": "A detach request is answered `detached` exactly when a client was attached at that time and afterwards no client is attached; repeating it is answered `not attached`; the session and its output history are unaffected.", "quantifier": "all histories of the session", "why_tests_cant": "all histories", "anchors": ["libshpool/src/daemon/shell.rs:SessionInner::spawn_shell_to_client"]}
{"id": "C23", "title": "Terminal size converges to the last request", "statement": "Once no resize is pending, the size of the session's pty equals the size in the most recent attach or resize request.", "quantifier": "all histories of attaches and resizes and all delays", "why_tests_cant": "unbounded histories and timing", "anchors": ["libshpool/src/daemon/shell.rs:SessionInner::spawn_shell_to_client,ResizeCmd"]}
{"id": "C24", "title": "Client exits with the shell's status and prints exactly the data", "statement": "The attach client prints exactly the concatenation of the data frames received, and if an exit-status frame was read before any fallback its exit code is that status; otherwise it is 1.", "quantifier": "all frame sequences and all thread interleavings of the client", "why_tests_cant": "thread interleavings", "anchors": ["libshpool/src/protocol.rs:Client::pipe_bytes", "libshpool/src/attach.rs:Attach::attach_resolved"]}
{"id": "C25", "title": "Colon durations", "statement": "A ttl written mm:ss, hh:mm:ss or dd:hh:mm:ss (two to four decimal numerals joined by colons) denotes s + 60 m + 3600 h + 86400 d seconds.", "quantifier": "all decimal numerals whose total fits 64 bits", "why_tests_cant": "infinitely many numerals", "anchors": ["libshpool/src/duration.rs:parse_colon_duration,parse"]}
{"id": "C26", "title": "Suffix durations", "statement": "A ttl written as a decimal number followed by s, m, h or d denotes that many seconds, minutes, hours or days.", "quantifier": "all decimal numerals whose total fits 64 bits", "why_tests_cant": "infinitely many numerals", "anchors": ["libshpool/src/duration.rs:parse_suffix_duration"]}
{"id": "C27", "title": "Malformed durations are rejected without crashing", "statement": "Any ttl string outside the two documented formats, or too large to represent, produces an error message rather than a panic or a wrong duration.", "quantifier": "all strings", "why_tests_cant": "all strings", "anchors": ["libshpool/src/duration.rs:parse"]}
{"id": "C28", "title": "Template parsing keeps the text", "statement": "An accepted session-name template, rendered back with each substitution as {name}, is the original source text; literal text never contains an opening brace.", "quantifier": "all template strings", "why_tests_cant": "all strings", "anchors": ["libshpool/src/template.rs:Template::new"]}
{"id": "C29", "title": "Template instantiation is substitution", "statement": "Instantiating a template replaces every {name} by the value of name (empty if unset), leaves all other text alone, does not re-expand inserted values and depends only on the variables named in the template.", "quantifier": "all templates and variable tables", "why_tests_cant": "all strings and tables", "anchors": ["libshpool/src/template.rs:Template::apply"]}
{"id": "C30", "title": "Template well-formedness is decided exactly", "statement": "A template is accepted if and only if every opening brace starts a {identifier} group where an identifier is a non-empty run of alphanumerics and underscores not starting with a digit; the parse is unique.", "quantifier": "all strings", "why_tests_cant": "all strings", "anchors": ["libshpool/src/template.rs:Template::new"]}
{"id": "C31", "title": "/etc/environment parsing", "statement": "Each simple KEY=value line contributes exactly that pair in file order, comment and blank lines contribute nothing, one malformed line never affects the others, keys are always non-empty and made of ASCII letters, digits and underscores, and values never contain a # or a newline.", "quantifier": "all files", "why_tests_cant": "all files", "anchors": ["libshpool/src/daemon/etc_environment.rs:parse_compat"]}
{"id": "C32", "title": "Configuration precedence", "statement": "For every setting, the effective value is the one from the highest-precedence file that mentions it (user file over system file) and files that do not mention a setting never disturb it; merging is associative and an absent or empty file is neutral.", "quantifier": "all contents of all configuration layers", "why_tests_cant": "product of all settings and layers", "anchors": ["libshpool/src/config.rs:Config::merge,Manager::load"]}
{"id": "C33", "title": "A broken configuration edit does not disturb a running daemon", "statement": "If on reload any configuration file fails to parse, the daemon keeps serving with the last good configuration; after the file is fixed the next reload takes effect.", "quantifier": "all histories of file edits and reloads", "why_tests_cant": "all histories", "anchors": ["libshpool/src/config.rs:Manager::new,Manager::load"]}
{"id": "C34", "title": "Configuration reload debounce loses no change", "statement": "Every change of a watched configuration file is followed by a reload that starts after the change and no later than one debounce period after the first unserved change; bursts are coalesced.", "quantifier": "all sequences and timings of file events", "why_tests_cant": "timing sequences are unbounded", "anchors": ["libshpool/src/config_watcher.rs:ConfigWatcherInner::run,trigger_reload,handle_event"]}
{"id": "C35", "title": "Watched paths are never forgotten", "statement": "Every path that was asked to be watched remains watched (itself or its nearest existing ancestor) after any sequence of file system events.", "quantifier": "all sequences of file events", "why_tests_cant": "all histories", "anchors": ["libshpool/src/config_watcher.rs:ConfigWatcherInner::rewatch,watch_and_add"]}
{"id": "C36", "title": "Session names stay inside the runtime directory", "statement": "For every session name the daemon accepts, the session's directory is a direct child of <runtime dir>/sessions and different names have different directories.", "quantifier": "all strings", "why_tests_cant": "all strings", "anchors": ["libshpool/src/daemon/server.rs:Server::handle_attach,Server::session_dir"]}
{"id": "C37", "title": "Client and daemon agree on session names", "statement": "The client rejects a resolved session name locally exactly when the daemon would reject it.", "quantifier": "all strings", "why_tests_cant": "all strings", "anchors": ["libshpool/src/attach.rs:Attach::attach_resolved", "libshpool/src/daemon/server.rs:Server::handle_attach"]}
{"id": "C38", "title": "Environment precedence in new sessions", "statement": "In a new session each environment variable has the value given by the highest-precedence source that defines it (/etc/environment, then forwarded client variables, then TERM, then the config's env table, then the daemon's base variables), and no variable appears that no source defines.", "quantifier": "all contents of all environment sources", "why_tests_cant": "product of sources", "anchors": ["libshpool/src/daemon/server.rs:Server::build_shell_env", "libshpool/src/attach.rs:dial_attach"]}
{"id": "C39", "title": "TERM rules", "statement": "A new session's TERM is the config's env TERM if set (unset if it is the empty string), otherwise the attaching client's TERM.", "quantifier": "all environments", "why_tests_cant": "product of sources", "anchors": ["libshpool/src/daemon/server.rs:Server::build_shell_env"]}
{"id": "C40", "title": "SSH agent socket path is stable across reattach", "statement": "Unless overridden in the configured env table or /etc/environment, SSH_AUTH_SOCK inside a session is a path that depends only on the session name and runtime directory, so every later attach can repoint it.", "quantifier": "all environments and all attaches", "why_tests_cant": "product of sources and histories", "anchors": ["libshpool/src/daemon/server.rs:Server::build_shell_env,link_ssh_auth_sock,ssh_auth_sock_symlink"]}
{"id": "C41", "title": "Start directory resolution", "statement": "The start directory is --dir if given (with . meaning the client's cwd), otherwise the configured default dir (with . meaning the cwd and $HOME or nothing meaning the home directory).", "quantifier": "all flag / config combinations", "why_tests_cant": "all strings", "anchors": ["libshpool/src/attach.rs:dial_attach", "libshpool/src/daemon/server.rs:Server::spawn_subshell"]}
{"id": "C42", "title": "Implicit target of kill and detach", "statement": "kill/detach without names act on the session they run in, with names on exactly those, and with neither fail without sending the daemon any request; they exit successfully iff every named session was found (and, for detach, attached).", "quantifier": "all argument lists and environments and replies", "why_tests_cant": "all lists", "anchors": ["libshpool/src/common.rs:resolve_sessions", "libshpool/src/kill.rs:run", "libshpool/src/detach.rs:run"]}
{"id": "C43", "title": "Session variables behave like a map", "statement": "After any history of variable changes, reading the variables returns exactly the last value set for each name that was not later unset, starting from the configured defaults; each change is answered and pushed to every live session with the state right after it.", "quantifier": "all histories of variable operations and interleavings of clients", "why_tests_cant": "all histories", "anchors": ["libshpool/src/daemon/server.rs:Server::handle_modify_var,Server::handle_get_vars", "libshpool/src/var.rs:run"]}
{"id": "C44", "title": "At most one client per session", "statement": "At any time at most one client is attached to a session; attaching to a session with an attached client is answered busy and disturbs nobody.", "quantifier": "all interleavings of all concurrent connections", "why_tests_cant": "thread interleavings", "anchors": ["libshpool/src/daemon/server.rs:Server::select_shell_desc"]}
{"id": "C45", "title": "Kill and detach replies partition the request", "statement": "A kill (detach) reply lists exactly the requested names that had no session (and, separately, those with no client); the sessions not listed are gone (detached) afterwards; all other sessions are untouched.", "quantifier": "all requests and all session tables", "why_tests_cant": "all lists and tables", "anchors": ["libshpool/src/daemon/server.rs:Server::handle_kill,Server::handle_detach"]}
{"id": "C46", "title": "Lifecycle events account for the session table", "statement": "At every moment the number of sessions in the table equals the number of created events minus the number of removed events published so far.", "quantifier": "all interleavings of all requests", "why_tests_cant": "thread interleavings", "anchors": ["libshpool/src/daemon/server.rs:Server::handle_attach,handle_kill,select_shell_desc", "libshpool/src/daemon/ttl_reaper.rs:run"]}
{"id": "C47", "title": "Sessions do not vanish", "statement": "A session with a live shell leaves the session table only because it was killed or its ttl ran out.", "quantifier": "all interleavings of all requests", "why_tests_cant": "thread interleavings", "anchors": ["libshpool/src/daemon/server.rs:Server::select_shell_desc,handle_attach", "libshpool/src/daemon/ttl_reaper.rs:run"]}
{"id": "C48", "title": "Daemon never deadlocks", "statement": "From every reachable state of concurrently running attach, detach, kill and list requests, some request can make progress, and the session table lock is eventually released.", "quantifier": "all interleavings", "why_tests_cant": "thread interleavings", "anchors": ["libshpool/src/daemon/server.rs:Server::select_shell_desc,handle_attach"]}
{"id": "C49", "title": "List reports true attachment status", "statement": "list reports a session as attached exactly when an attach request currently owns it, and lists every session exactly once.", "quantifier": "all interleavings", "why_tests_cant": "thread interleavings", "anchors": ["libshpool/src/daemon/server.rs:Server::handle_list"]}
{"id": "C50", "title": "Attach and detach timestamps", "statement": "For every listed session the reported last-connected time is that of the latest attach and the last-disconnected time that of the latest detach since creation, and an attached session has last-connected not older than last-disconnected.", "quantifier": "all histories", "why_tests_cant": "all histories", "anchors": ["libshpool/src/daemon/shell.rs:SessionLifecycle", "libshpool/src/daemon/server.rs:Server::handle_list"]}
{"id": "C51", "title": "Subscribers see whole events in order", "statement": "What a subscriber receives is a prefix of the concatenation of the JSON lines of the events broadcast since it was accepted, in publish order, with no gaps and no duplicates, for every pattern of short writes.", "quantifier": "all event sequences and all short-write / would-block patterns", "why_tests_cant": "unbounded write patterns", "anchors": ["libshpool/src/daemon/events.rs:drive_pending,SubscriberWriter,Sink::run"]}
{"id": "C52", "title": "No event wake-up is lost", "statement": "Whenever an event is queued and no publisher is mid-call, the sink either is already processing or will be woken; when it next goes idle the queue is empty.", "quantifier": "all interleavings of publishers with the sink", "why_tests_cant": "thread interleavings", "anchors": ["libshpool/src/daemon/events.rs:EventBus::publish,Sink::run"]}
{"id": "C53", "title": "A slow subscriber harms only itself", "statement": "A subscriber's backlog never exceeds 64 events, only a subscriber whose backlog is full or whose socket failed is dropped, and what one subscriber receives does not depend on the others.", "quantifier": "all event sequences, all subscriber behaviours", "why_tests_cant": "unbounded histories", "anchors": ["libshpool/src/daemon/events.rs:Sink::run,SubscriberWriter::enqueue"]}
{"id": "C54", "title": "Events after connecting are delivered", "statement": "Every event published after a subscriber's connect returns is delivered to it unless it is dropped for being slow or the channel overflows.", "quantifier": "all interleavings of connect, publish and sink", "why_tests_cant": "thread interleavings", "anchors": ["libshpool/src/daemon/events.rs:Sink::run"]}
{"id": "C55", "title": "No session is reaped before its ttl", "statement": "The reaper kills a session only for a registration of that name whose deadline has passed, and reaps in deadline order.", "quantifier": "all registration histories and timings", "why_tests_cant": "unbounded histories", "anchors": ["libshpool/src/daemon/ttl_reaper.rs:run,Reapable"]}
{"id": "C56", "title": "A newer ttl supersedes an older one", "statement": "If a name is registered again, no later reap is caused by the older registration.", "quantifier": "all registration histories and timings", "why_tests_cant": "unbounded histories", "anchors": ["libshpool/src/daemon/ttl_reaper.rs:run"]}
{"id": "C57", "title": "Only sessions with a ttl are reaped, and they are reaped", "statement": "A session created without ttl is never killed by the reaper; a session created with ttl is killed once its ttl elapsed.", "quantifier": "all histories of creates, kills, exits and timings", "why_tests_cant": "unbounded histories and races", "anchors": ["libshpool/src/daemon/ttl_reaper.rs:run", "libshpool/src/daemon/server.rs:Server::select_shell_desc,spawn_subshell"]}
{"id": "C58", "title": "Exit notification is a latch", "statement": "Once the shell's exit has been announced every present and future waiter obtains the status; before that every poll reports still running.", "quantifier": "all interleavings of notify and waits", "why_tests_cant": "thread interleavings", "anchors": ["libshpool/src/daemon/exit_notify.rs:ExitNotifier"]}
{"id": "C59", "title": "Forced attach is bounded", "statement": "A forced attach against a busy session issues at most one detach request, retries a bounded number of times, and fails with an error if still busy; without force a busy session is reported at once and never detached.", "quantifier": "all reply sequences", "why_tests_cant": "all reply sequences", "anchors": ["libshpool/src/attach.rs:Attach::attach_resolved"]}
{"id": "C60", "title": "Templated attach follows its variables", "statement": "A templated attach is always attached to the session named by its template under the latest variables it was told about; it switches exactly when an update changes the resulting name.", "quantifier": "all histories of variable updates", "why_tests_cant": "all histories", "anchors": ["libshpool/src/attach.rs:Attach::run,attach_resolved", "libshpool/src/protocol.rs:Client::pipe_bytes"]}
{"id": "C61", "title": "Peer credential check", "statement": "A connection is served only if the peer runs as the daemon's own user; a rejected attach is told it is forbidden and nothing else happens.", "quantifier": "all peers and requests", "why_tests_cant": "all requests", "anchors": ["libshpool/src/daemon/server.rs:Server::handle_conn,check_peer"]}
{"id": "C62", "title": "Session table output is aligned", "statement": "Every row of the plain text session list starts with the padded session name so that all rows have their second column at the same byte offset and the names can be read back.", "quantifier": "all session tables", "why_tests_cant": "all names", "anchors": ["libshpool/src/list.rs:run"]}
{"id": "C63", "title": "Autodaemonize waits boundedly and starts one daemon", "statement": "The client launching a daemon polls with doubling delays: in total at most 5110 ms by default, with each delay at most 2 s when no timeout is used; of all daemons racing on one pid file at most one survives.", "quantifier": "all schedules of racing daemons, all connect outcomes", "why_tests_cant": "races", "anchors": ["libshpool/src/daemonize.rs:maybe_launch_daemon,daemonize"]}
{"id": "C64", "title": "Pager is exclusive and hands back the final size", "statement": "At most one message pager runs per session, its control slot is free again after it ends for any reason, and the session starts with the last terminal size announced while paging.", "quantifier": "all histories of pager runs and resizes", "why_tests_cant": "all histories", "anchors": ["libshpool/src/daemon/pager.rs:Pager::display,PagerCtlGuard"]}
{"id": "C65", "title": "Daily message debounce", "statement": "With a monotone clock, two message-of-the-day displays are never closer together than the configured interval, and the first one is shown at once.", "quantifier": "all timings", "why_tests_cant": "all timings", "anchors": ["libshpool/src/daemon/show_motd.rs:Debouncer"]}
{"id": "C66", "title": "Kill escalates", "statement": "Killing a session sends a hangup first, sends the kill signal only if the shell is still alive after the grace period, treats an already dead process as success and reports any other signalling failure.", "quantifier": "all process behaviours", "why_tests_cant": "timing and errno combinations", "anchors": ["libshpool/src/daemon/shell.rs:Session::kill"]}
{"id": "C67", "title": "Every injected script announces the end of setup", "statement": "For every shell type, prompt prefix, session name and start command, the injected setup script ends with the command that prints the prompt sentinel, contains the start command as a line exactly when one is configured, and is empty of any start command otherwise.", "quantifier": "all strings", "why_tests_cant": "all strings", "anchors": ["libshpool/src/daemon/shell_inject.rs:maybe_setup"]}
{"id": "C68", "title": "Line endings in the raw message of the day", "statement": "The raw-mode message of the day is the original text with every line terminated by line feed and carriage return, losing no other byte.", "quantifier": "all texts", "why_tests_cant": "all texts", "anchors": ["libshpool/src/daemon/show_motd.rs:DailyMessenger::convert_to_raw"]}
{"id": "C69", "title": "Scrollback size selection", "statement": "The number of scrollback lines kept is the configured output_spool_lines if set, else the number in a `lines` restore mode, else 500; the simple mode keeps none and restores nothing.", "quantifier": "all configurations", "why_tests_cant": "all numbers", "anchors": ["libshpool/src/daemon/server.rs:Server::spawn_subshell", "libshpool/src/session_restore.rs:new"]}
{"id": "C70", "title": "Bounded sleeping helper", "statement": "The interruptible sleep returns early iff its condition held at a poll, otherwise sleeps at least the requested time and never overshoots the deadline by a sleep; the condition is checked at least once.", "quantifier": "all clocks and conditions and poll strategies", "why_tests_cant": "all timings", "anchors": ["libshpool/src/common.rs:sleep_unless"]}
{"id": "C71", "title": "Only chosen variables leave the client", "statement": "The attach request carries exactly TERM, DISPLAY, LANG, SSH_AUTH_SOCK and the variables listed in forward_env that are set in the client, with the client's values; those (other than TERM and SSH_AUTH_SOCK) are set to these values in a new session unless /etc/environment sets them.", "quantifier": "all client environments and forward_env lists", "why_tests_cant": "all environments", "anchors": ["libshpool/src/attach.rs:Attach::dial_attach", "libshpool/src/daemon/server.rs:Server::build_shell_env"]}
{"id": "C72", "title": "forward.env can be read back", "statement": "The forward.env file of a session lists the variables forwarded by the latest attach to that session, one NAME=value line each, and reading it back gives exactly those variables.", "quantifier": "all attach histories and all environments", "why_tests_cant": "all values", "anchors": ["libshpool/src/daemon/server.rs:Server::populate_session_env_file"]}
{"id": "C73", "title": "The daemon starts with well-formed configuration files", "statement": "If no configuration file is malformed the configuration can be loaded and watched and start-up goes on, wherever the user's configuration directory is.", "quantifier": "all environments, home directories and file contents", "why_tests_cant": "all environments", "anchors": ["libshpool/src/config.rs:Manager::new", "libshpool/src/config_watcher.rs:ConfigWatcherInner::add_watch_by_command"]}
{"id": "C74", "title": "Location of the user configuration", "statement": "The user configuration is read from $XDG_CONFIG_HOME/shpool/config.toml, or from $HOME/.config/shpool/config.toml if that variable is not set, after the system file; an explicitly given file is the only one read.", "quantifier": "all environments", "why_tests_cant": "all environments", "anchors": ["libshpool/src/config.rs:Manager::new,Manager::config_base_dir"]}
{"id": "C75", "title": "Configuration edits do not break running sessions", "statement": "Changing the configuration file while sessions are running never makes the output thread of a session die.", "quantifier": "all configuration changes at all times", "why_tests_cant": "any change can fall between any two steps", "anchors": ["libshpool/src/daemon/shell.rs:SessionInner::spawn_shell_to_client", "libshpool/src/daemon/show_motd.rs:DailyMessenger::dump"]}
{"id": "C76", "title": "A slow client does not wedge its session", "statement": "Whatever the timing of earlier requests (attach, detach, resize, heartbeat), a session whose shell runs goes back to taking requests, and every answer a requester gets is the answer to its own request.", "quantifier": "all sequences of requests and all points at which a requester gives up waiting", "why_tests_cant": "needs a client that stops reading and schedules around a timeout", "anchors": ["libshpool/src/daemon/shell.rs:SessionInner::spawn_shell_to_client,SessionInner::spawn_heartbeat,SessionInner::action_detach", "libshpool/src/daemon/server.rs:Server::handle_detach,Server::dispath_session_message"]}
{"id": "C77", "title": "Signals reach only the session's own shell", "statement": "A signal sent by shpool on behalf of a session (kill, or the end of an attach) only ever reaches the shell process of that session, never another process.", "quantifier": "all histories of shells starting, exiting, being reaped and of other processes being started", "why_tests_cant": "process numbers are reused unpredictably", "anchors": ["libshpool/src/daemon/shell.rs:Session::kill", "libshpool/src/daemon/server.rs:Server::handle_kill"]}
{"id": "C78", "title": "Session names are shown literally", "statement": "For every session name the daemon accepts, the prompt shows the name as it is: no character of the name is interpreted by the shell.", "quantifier": "all session names accepted by the daemon", "why_tests_cant": "all strings", "anchors": ["libshpool/src/daemon/shell_inject.rs:maybe_setup", "libshpool/src/daemon/server.rs:Server::handle_attach"]}
{"id": "C79", "title": "A slow daemon is found", "statement": "A client that starts the daemon itself finds it if the daemon begins to answer before the client's waiting time is over.", "quantifier": "all start-up times", "why_tests_cant": "all delays", "anchors": ["libshpool/src/daemonize.rs:maybe_launch_daemon"]}
{"id": "C80", "title": "The message of the day never prevents an attach", "statement": "Deciding whether the message of the day is due never fails, whatever the system clock does.", "quantifier": "all sequences of clock readings", "why_tests_cant": "needs clock steps", "anchors": ["libshpool/src/daemon/show_motd.rs:DailyMessenger", "libshpool/src/daemon/show_motd.rs:Debouncer::should_fire"]}
{"id": "C81", "title": "Hidden output is always uncovered", "statement": "A session that hides the shell's output until the prompt has been set up has told the shell to print the marker that ends the hiding.", "quantifier": "all requests, configurations and outcomes of the shell's start", "why_tests_cant": "needs a shell that starts too slowly", "anchors": ["libshpool/src/daemon/shell_inject.rs:maybe_setup", "libshpool/src/daemon/server.rs:Server::spawn_subshell"]}
{"id": "C82", "title": "The marker command runs the daemon's binary", "statement": "Wherever the binary is installed, the injected command runs exactly that binary with the argument daemon, also after the binary was replaced on disk.", "quantifier": "all installation paths", "why_tests_cant": "all strings", "anchors": ["libshpool/src/daemon/shell_inject.rs:maybe_setup", "libshpool/src/exe.rs:current"]}
{"id": "C83", "title": "Shells inherit only the standard descriptors", "statement": "A shell or pager started by the daemon has no file descriptor of the daemon open but the three standard ones.", "quantifier": "all sets of descriptors the daemon may have open", "why_tests_cant": "depends on what happens to be open", "anchors": ["libshpool/src/daemon/server.rs:Server::spawn_subshell", "libshpool/src/daemon/pager.rs:Pager::display"]}
{"id": "C84", "title": "Clients starting together do not disturb each other", "statement": "A client that looks for the daemon, and starts one if there is none, is never turned away because of what other clients or daemons do at the same time, also after a daemon died without cleaning up.", "quantifier": "all interleavings of any number of clients and daemons, with crashes", "why_tests_cant": "needs exact schedules around a crash", "anchors": ["libshpool/src/daemonize.rs:maybe_launch_daemon", "libshpool/src/daemon/mod.rs:run"]}
{"id": "C85", "title": "A running daemon keeps its files", "statement": "As long as a daemon serves, its control socket, its events socket and its pid file stay in place, whatever other daemons are started on the same socket.", "quantifier": "all interleavings of any number of clients and daemons", "why_tests_cant": "needs several daemons and exact schedules", "anchors": ["libshpool/src/daemon/mod.rs:run", "libshpool/src/daemon/events.rs:EventBus::start,ListenerGuard", "libshpool/src/daemonize.rs:daemonize,PidFileGuard", "libshpool/src/daemon/signals.rs:Handler"]}
{"id": "C86", "title": "Instances on different sockets are separate", "statement": "Two instances started with different control sockets share no file.", "quantifier": "all pairs of socket paths", "why_tests_cant": "all pairs of paths", "anchors": ["libshpool/src/lib.rs:run", "libshpool/src/daemon/events.rs:socket_path", "libshpool/src/daemon/mod.rs:run", "libshpool/src/daemonize.rs:maybe_launch_daemon"]}
{"id": "C87", "title": "Shells have the user's umask", "statement": "The shells of a daemon have the umask with which the daemon was started.", "quantifier": "all umasks and ways to start the daemon", "why_tests_cant": "depends on how the daemon was started", "anchors": ["libshpool/src/daemonize.rs:daemonize", "libshpool/src/daemon/server.rs:Server::spawn_subshell", "libshpool/src/daemon/mod.rs:run"]}
{"id": "C88", "title": "The terminal is given back as it was", "statement": "While attached, a client started on a terminal has it in raw mode (and nothing else changed); when the client ends, for whatever reason and after any number of switches between sessions, the terminal has exactly the settings it had before. If one of its standard descriptors is not a terminal the settings are not touched.", "quantifier": "all terminal settings, all ways an attach can end, all sequences of switches", "why_tests_cant": "ends by panic, stuck thread or signal", "anchors": ["libshpool/src/tty.rs:set_attach_flags,AttachFlagsGuard", "libshpool/src/protocol.rs:Client::pipe_bytes", "libshpool/src/attach.rs:Attach::run"]}
{"id": "C89", "title": "The session has the size of the terminal", "statement": "When no resize is being handled, the session a client is attached to has the size of the client's terminal, whenever the terminal was resized; no other session's size is changed.", "quantifier": "all interleavings of resizes, attaches, switches and the actions of other clients", "why_tests_cant": "needs a resize at an exact moment", "anchors": ["libshpool/src/attach.rs:SignalHandler,Attach::dial_attach", "libshpool/src/daemon/server.rs:Server::dispath_session_message"]}
{"id": "C90", "title": "The exit status of attach tells what happened", "statement": "shpool attach ends with status zero only if the client was attached to the session asked for; if the shell exits while attached the status is the shell's; after an error it is 1.", "quantifier": "all sequences of replies, switches and ways the attach can end", "why_tests_cant": "all histories", "anchors": ["libshpool/src/attach.rs:Attach::run,Attach::attach_resolved", "libshpool/src/protocol.rs:Client::pipe_bytes", "libshpool/src/lib.rs:run"]}
{"id": "C91", "title": "A program can follow the daemon by its events", "statement": "A program that lists the sessions after each event has a list that is right whenever the daemon is not in the middle of serving a request.", "quantifier": "all interleavings of requests, shells, clients and the reaper", "why_tests_cant": "needs the list to be asked for at an exact moment", "anchors": ["libshpool/src/daemon/server.rs:Server::handle_attach,Server::select_shell_desc,Server::handle_list,Server::handle_kill", "libshpool/src/daemon/events.rs:EventBus::publish"]}
{"id": "C92", "title": "An attached client is connected", "statement": "A client that is told it is attached to a session whose shell runs is connected to that shell.", "quantifier": "all histories, with internal threads that fail at any time", "why_tests_cant": "needs a thread to fail at an exact moment", "anchors": ["libshpool/src/daemon/server.rs:Server::select_shell_desc,Server::handle_attach"]}
{"id": "C93", "title": "Every accepted ttl is honoured", "statement": "If the attach command accepts a ttl, the new session is created and is to end exactly that long after its start.", "quantifier": "all ttl strings and all times", "why_tests_cant": "all strings", "anchors": ["libshpool/src/attach.rs:run", "libshpool/src/duration.rs:parse", "libshpool/src/daemon/server.rs:Server::spawn_subshell"]}
{"id": "C94", "title": "The shell's exit status reaches the client", "statement": "When the shell exits the attached client is told the shell's exit code; when it was ended by a signal, or could not be waited for, it is told 1.", "quantifier": "all exit codes, signals and ways the frame with the status is cut into reads", "why_tests_cant": "all segmentations", "anchors": ["libshpool/src/daemon/server.rs:Server::spawn_subshell", "libshpool/src/daemon/shell.rs:SessionInner::spawn_shell_to_client", "libshpool/src/protocol.rs:Client::pipe_bytes"]}
{"id": "C95", "title": "The right command is run", "statement": "A new session without a command runs the configured shell, or else the user's, as a login shell, with start-up files switched off if the configuration says so; with a command it runs exactly the words of that command. It starts in the directory asked for, or else at home.", "quantifier": "all shells, commands, configurations and directories", "why_tests_cant": "all strings", "anchors": ["libshpool/src/daemon/server.rs:Server::spawn_subshell"]}
{"id": "C96", "title": "SHELL names the shell that runs", "statement": "In a session without a command, unless the user sets the variable, SHELL is the path of the shell that runs.", "quantifier": "all configurations, environments and users", "why_tests_cant": "all configurations", "anchors": ["libshpool/src/daemon/server.rs:Server::spawn_subshell,Server::build_shell_env"]}
{"id": "C97", "title": "A failed start leaves no shell behind", "statement": "If a session cannot be created, no shell was started for it; if it is created, exactly the command described in C95 was started.", "quantifier": "all requests and all ways the system can fail", "why_tests_cant": "needs failing system calls", "anchors": ["libshpool/src/daemon/server.rs:Server::spawn_subshell"]}
{"id": "C98", "title": "The terminal database is that of the shell's terminal type", "statement": "The terminal database the daemon uses for a session is that of the TERM the shell has.", "quantifier": "all configurations, client environments and contents of /etc/environment", "why_tests_cant": "all contents of a file", "anchors": ["libshpool/src/daemon/server.rs:Server::spawn_subshell,Server::build_shell_env"]}
{"id": "C99", "title": "Forwarded variables are private", "statement": "No other user can read the variables forwarded to a session.", "quantifier": "all umasks, modes of directories, interleavings of requests and points of failure", "why_tests_cant": "all interleavings and modes", "anchors": ["libshpool/src/daemon/server.rs:Server::link_ssh_auth_sock,Server::populate_session_env_file"]}
{"id": "C100", "title": "Events are private", "statement": "No other user can subscribe to the events of a daemon.", "quantifier": "all umasks, ways to start the daemon, modes of directories", "why_tests_cant": "needs a second user", "anchors": ["libshpool/src/daemon/events.rs:EventBus::start,Sink::run", "libshpool/src/daemonize.rs:daemonize"]}
{"id": "C101", "title": "The environment file can be sourced", "statement": "Sourcing the file forward.env of a session sets each variable forwarded in the last attach to its value, and does nothing else.", "quantifier": "all names and values of forwarded variables", "why_tests_cant": "all strings", "anchors": ["libshpool/src/daemon/server.rs:Server::populate_session_env_file"]}
{"id": "C102", "title": "Messages survive the wire", "statement": "Every request, reply and table of variables that one side of the control socket sends is read by the other side as exactly what was sent, and reading it leaves what follows on the connection untouched.", "quantifier": "all messages, with all texts, numbers, lists and tables in them", "why_tests_cant": "unbounded data", "anchors": ["libshpool/src/protocol.rs:encode_to,decode_from", "shpool-protocol/src/lib.rs:ConnectHeader,AttachHeader,AttachReplyHeader,ListReply,SessionMessageReply,MaybeSwitch,VersionHeader"]}
{"id": "C103", "title": "Mixed versions understand each other", "statement": "A message of another version of the protocol, with its fields in any order, with fields this version does not know and without some it knows, is read: unknown fields are ignored, missing ones have their defaults.", "quantifier": "all sets and orders of fields, all contents of unknown fields", "why_tests_cant": "unbounded data from programs that do not exist yet", "anchors": ["shpool-protocol/src/lib.rs:ConnectHeader,AttachHeader,Session,SessionStatus,TtySize,MaybeSwitch", "libshpool/src/protocol.rs:decode_from"]}
{"id": "C104", "title": "A program can follow the daemon by its hooks", "statement": "For each session name the hooks tell of attaching (new session, reattach) and of leaving (client or shell disconnect) in turns; each attach request calls the hooks that fit what happened to it, with its session name; what a hook returns changes nothing.", "quantifier": "all interleavings of requests, shells, clients, the reaper and the calls", "why_tests_cant": "all schedules", "anchors": ["libshpool/src/hooks.rs:Hooks", "libshpool/src/daemon/server.rs:Server::handle_attach,Server::select_shell_desc"]}
{"id": "C105", "title": "The daemon listens on the socket it was passed", "statement": "A daemon that was passed a socket by a service manager listens on it; one that was not listens on its own path, and loses none of its own descriptors.", "quantifier": "all tables of descriptors, environments and things the daemon has opened before", "why_tests_cant": "all states a process can be started in", "anchors": ["libshpool/src/daemon/systemd.rs:activation_socket", "libshpool/src/daemon/mod.rs:run"]}
{"id": "C106", "title": "A new shell is the user's", "statement": "A session without a command or configured shell runs the login shell of the user the daemon runs as, /bin/sh if their entry has none, in their home directory.", "quantifier": "all entries of the user database", "why_tests_cant": "all entries", "anchors": ["libshpool/src/user.rs:info", "libshpool/src/daemon/server.rs:Server::handle_attach,Server::spawn_subshell"]}
{"id": "C107", "title": "A client that is gone frees its session", "statement": "Whatever has happened, once an attached client has gone the daemon ends its request by itself, so that the session can be attached again.", "quantifier": "all schedules of the threads of a request, all delays, all other requests", "why_tests_cant": "all interleavings of five threads with time-outs", "anchors": ["libshpool/src/daemon/shell.rs:SessionInner::bidi_stream,SessionInner::spawn_client_to_shell,SessionInner::spawn_heartbeat,SessionInner::supervise_child,SessionInner::action_detach", "libshpool/src/daemon/server.rs:Server::handle_attach,Server::handle_detach"]}
{"id": "C108", "title": "The status a client is told is true", "statement": "An attached client is told at most one status: the one its shell exited with, or 0 if somebody asked for the client to be detached.", "quantifier": "all schedules of the threads of a request, all statuses", "why_tests_cant": "all interleavings", "anchors": ["libshpool/src/daemon/shell.rs:SessionInner::bidi_stream,SessionInner::spawn_shell_to_client,write_exit_chunk,SessionInner::action_detach"]}
{"id": "C109", "title": "The session of a shell that exited is removed", "statement": "A session whose shell exits while a client is attached is removed when the client's request ends, and no session is removed by the end of a request whose shell still runs.", "quantifier": "all schedules of the threads of a request", "why_tests_cant": "all interleavings", "anchors": ["libshpool/src/daemon/shell.rs:SessionInner::bidi_stream,SessionInner::supervise_child", "libshpool/src/daemon/server.rs:Server::handle_attach"]}
{"id": "C110", "title": "A former client cannot type", "statement": "What reaches a shell from an attached client is what the client sent, in order and nothing twice; once the client's request has ended nothing it sends reaches the shell any more.", "quantifier": "all schedules of the threads of a request, all inputs", "why_tests_cant": "all interleavings", "anchors": ["libshpool/src/daemon/shell.rs:SessionInner::bidi_stream,SessionInner::spawn_client_to_shell"]}
{"id": "C111", "title": "The list of sessions can be read by programs", "statement": "A program that reads the output of shpool list --json gets exactly the sessions the daemon reported, in order, with everything reported about each of them.", "quantifier": "all names, times, states and attachments", "why_tests_cant": "unbounded data", "anchors": ["libshpool/src/list.rs:run", "shpool-protocol/src/lib.rs:Session,SessionStatus,ListReply"]}
{"id": "C112", "title": "Variables can be read by programs", "statement": "A program that reads the output of shpool var list (with or without --json) gets exactly the variables and their values; one that reads the output of shpool var get learns whether the variable is set and its value.", "quantifier": "all names and values", "why_tests_cant": "unbounded data", "anchors": ["libshpool/src/var.rs:run"]}
{"id": "C113", "title": "Each line of the events output is an event", "statement": "Each line that shpool events prints is a JSON object that tells of an event the daemon published.", "quantifier": "all sequences of events, all ways the stream is cut into pieces, all points at which the connection ends", "why_tests_cant": "all points of failure", "anchors": ["libshpool/src/events.rs:run", "libshpool/src/daemon/events.rs:Event,Sink"]}
{"id": "C114", "title": "A client of another version can attach after the warning", "statement": "A user whose client warns them that the daemon has another version can attach by pressing enter; what they type afterwards is for their shell.", "quantifier": "all inputs and times at which they are typed", "why_tests_cant": "all times", "anchors": ["libshpool/src/attach.rs:dial_client", "libshpool/src/daemon/server.rs:Server::handle_conn", "libshpool/src/protocol.rs:ClientResult"]}
{"id": "C115", "title": "A signal ends the daemon cleanly", "statement": "A daemon that is sent SIGINT or SIGTERM removes its sockets and exits with status 0; it does not exit unless it was sent a signal; the second signal ends it at once.", "quantifier": "all times at which signals arrive and all interleavings with the handlers", "why_tests_cant": "all interleavings", "anchors": ["libshpool/src/daemon/signals.rs:Handler::spawn", "libshpool/src/daemon/mod.rs:run"]}
{"id": "C116", "title": "Editing the configuration never hangs the daemon", "statement": "Whenever a configuration file is edited, requests that are under way and requests that come later are still carried out.", "quantifier": "all interleavings of requests, sessions and reloads", "why_tests_cant": "all interleavings", "anchors": ["libshpool/src/config.rs:Manager::new,Manager::get", "libshpool/src/daemon/server.rs:Server::build_shell_env,Server::spawn_subshell", "libshpool/src/session_restore.rs:new"]}
{"id": "C117", "title": "A session is set up by one configuration", "statement": "All that an attach request reads of the configuration is of one version of it.", "quantifier": "all interleavings of requests and reloads", "why_tests_cant": "all interleavings", "anchors": ["libshpool/src/config.rs:Manager::get", "libshpool/src/daemon/server.rs:Server::handle_attach,Server::build_shell_env,Server::spawn_subshell", "libshpool/src/session_restore.rs:new"]}
{"id": "C118", "title": "A change of the configuration is noticed", "statement": "Whenever a change of the file system changes what is read from a configuration file, the daemon reads the configuration again.", "quantifier": "all file systems with links, all places of the files, all changes", "why_tests_cant": "all shapes of the file system", "anchors": ["libshpool/src/config_watcher.rs:ConfigWatcherInner::watch_and_add,best_effort_canonicalize,ConfigWatcher::watch", "libshpool/src/config.rs:Manager::new"]}
{"id": "C119", "title": "shpool starts whatever the configuration files are links to", "statement": "Looking for changes of the configuration files never keeps shpool from starting.", "quantifier": "all file systems with links", "why_tests_cant": "all shapes of the file system", "anchors": ["libshpool/src/config.rs:Manager::new", "libshpool/src/config_watcher.rs:ConfigWatcher::watch", "libshpool/src/lib.rs:run"]}
{"id": "C120", "title": "A daemon follows its configuration", "statement": "Whenever the daemon runs and the configuration file is well-formed, the daemon comes to use it by itself.", "quantifier": "all ways to start the daemon, all times of edits, all interleavings with the watcher", "why_tests_cant": "all interleavings", "anchors": ["libshpool/src/config.rs:Manager::new", "libshpool/src/config_watcher.rs:ConfigWatcher::with_debounce,ConfigWatcherInner::run", "libshpool/src/daemonize.rs:daemonize,become_child", "libshpool/src/daemon/mod.rs:run", "libshpool/src/lib.rs:run"]}
{"id": "C121", "title": "A daemon comes up", "statement": "A daemon that could read its configuration comes to accept connections.", "quantifier": "all ways to start the daemon and all interleavings of its start with the watcher of the configuration", "why_tests_cant": "all interleavings", "anchors": ["libshpool/src/daemonize.rs:daemonize,become_child", "libshpool/src/daemon/mod.rs:run", "libshpool/src/config.rs:Manager::new"]}
{"id": "C122", "title": "A broken configuration does not lock users out", "statement": "A user whose daemon runs can list, attach, detach and kill their sessions whatever the configuration files contain.", "quantifier": "all commands, arguments and states of files", "why_tests_cant": "all combinations", "anchors": ["libshpool/src/lib.rs:run", "libshpool/src/config.rs:Manager::new"]}
{"id": "C123", "title": "A daemon is started exactly when wanted", "statement": "A command starts a daemon if and only if it needs one, none answers on its socket, and the flags and the configuration ask for it (-D before -d before the configuration); the daemon gets the socket and configuration of the command, and the command goes on only once it is up.", "quantifier": "all commands, arguments, configurations and states of sockets and files", "why_tests_cant": "all combinations", "anchors": ["libshpool/src/lib.rs:run", "libshpool/src/daemonize.rs:maybe_launch_daemon"]}
{"id": "C124", "title": "A daemon that is started is found", "statement": "A daemon that a command starts listens where the command looks for it.", "quantifier": "all sockets given on the command line, all working directories", "why_tests_cant": "all paths", "anchors": ["libshpool/src/daemonize.rs:maybe_launch_daemon,daemonize", "libshpool/src/daemon/mod.rs:run", "libshpool/src/lib.rs:run"]}
{"id": "C125", "title": "Failures are explained", "statement": "A command that fails says something about it, on its standard error or in the log file it was given.", "quantifier": "all commands, arguments and answers of the system and the daemon", "why_tests_cant": "all combinations of failures", "anchors": ["libshpool/src/lib.rs:run,LogWriterBuilder", "libshpool/src/attach.rs:run,Attach::run,Attach::attach_resolved,Attach::dial_attach,Attach::dial_client", "libshpool/src/detach.rs:run", "libshpool/src/kill.rs:run", "libshpool/src/list.rs:run", "libshpool/src/var.rs:run", "libshpool/src/events.rs:run", "libshpool/src/set_log_level.rs:run"]}
{"id": "C126", "title": "The terminal's display is given back", "statement": "When a client ends, its terminal has the modes (alternate screen, mouse reports, hidden cursor, ...) it had before.", "quantifier": "all interleavings of the client's threads, all output of the session, all terminals", "why_tests_cant": "all outputs and interleavings", "anchors": ["libshpool/src/protocol.rs:Client::pipe_bytes", "libshpool/src/tty.rs:set_attach_flags"]}
{"id": "C127", "title": "The message of the day follows the configuration", "statement": "A client that attaches is shown the message of the day in a pager exactly if the configuration at that time asks for it and the configured interval has passed since it was last shown; this never makes the attach fail.", "quantifier": "all histories of attach requests and edits of the configuration, all clocks that do not go back", "why_tests_cant": "all histories", "anchors": ["libshpool/src/daemon/show_motd.rs:DailyMessenger::new,DailyMessenger::display_in_pager,Debouncer::should_fire", "libshpool/src/daemon/server.rs:Server::handle_attach"]}
{"id": "C128", "title": "Subscribers that leave are forgotten", "statement": "Once a subscriber to the events has closed its connection, the daemon lets go of it.", "quantifier": "all interleavings of publishers, subscribers and the events thread, all answers of the sockets", "why_tests_cant": "all interleavings", "anchors": ["libshpool/src/daemon/events.rs:Sink::run,SubscriberWriter"]}
{"id": "C129", "title": "A connection that does not complete its request is closed soon", "statement": "Whatever a client does, the daemon has its request, or has given up on it, within a minute.", "quantifier": "all requests and all ways to send them in time", "why_tests_cant": "all timings", "anchors": ["libshpool/src/daemon/server.rs:Server::handle_conn,parse_connect_header", "libshpool/src/protocol.rs:decode_from", "libshpool/src/consts.rs:SOCK_STREAM_TIMEOUT"]}
{"id": "C130", "title": "A client that does not read its answer does not hold up others", "statement": "No request waits more than a second because the client of another one reads its answer slowly.", "quantifier": "all requests, all sizes of answers, all ways to read them in time", "why_tests_cant": "all timings", "anchors": ["libshpool/src/daemon/server.rs:write_reply,Server::handle_list,Server::select_shell_desc,Server::handle_kill,Server::handle_detach", "libshpool/src/protocol.rs:encode_to"]}
{"id": "C131", "title": "Clients cannot end the daemon", "statement": "Whatever connections are made to it, the daemon goes on.", "quantifier": "all histories of connections, all limits of the system", "why_tests_cant": "all histories", "anchors": ["libshpool/src/daemon/server.rs:Server::serve"]}
{"id": "C132", "title": "What the shell prints appears on the user's terminal", "statement": "At every moment what an attached client has printed is a beginning of: the snapshot of the session at the moment it attached (none for the client that started it), the message of the day if it was due, and what the shell has made visible since, in order and without gaps. All that has been sent can be printed by the client alone (if the message of the day and switch hints fit its 16 KiB buffer), and once nothing is on its way it has been; a client that was told an exit status has printed everything sent to it.", "quantifier": "all histories of the session (several clients, take-overs, broken connections, resizes, heartbeats), all ways the socket cuts up the bytes, all interleavings of daemon and client", "why_tests_cant": "all interleavings and segmentations", "anchors": ["libshpool/src/daemon/shell.rs:SessionInner::spawn_shell_to_client", "libshpool/src/protocol.rs:ChunkExt::write_to,ChunkExt::read_into,Client::pipe_bytes"]}
{"id": "C133", "title": "What is typed reaches the shell", "statement": "If no configured key binding occurs in what the user types, the shell gets exactly that, in order, up to what is still on its way and up to a last piece that is the beginning of a binding. The shell never gets anything but what was typed, in order. Typing does not detach the client unless a detach binding is in it.", "quantifier": "all inputs, all bindings, all ways the terminal and the socket cut up the bytes, all interleavings", "why_tests_cant": "all interleavings and segmentations", "anchors": ["libshpool/src/protocol.rs:Client::pipe_bytes", "libshpool/src/daemon/shell.rs:SessionInner::spawn_client_to_shell", "libshpool/src/daemon/keybindings.rs:Bindings"]}
{"id": "C134", "title": "An automatically started daemon lets go of what launched it", "statement": "The daemon a command starts is in a session and process group of its own, has no controlling terminal and never gets one, has the root as its working directory, and holds none of the open files of the command that launched it.", "quantifier": "all launching processes, all their descriptors, all answers of the system, all that the daemon opens later", "why_tests_cant": "all environments of the launching command", "anchors": ["libshpool/src/daemonize.rs:maybe_launch_daemon,daemonize,redirect_std_fds_to_null,become_child"]}
{"id": "C135", "title": "Sessions of different names do not touch each other", "statement": "A client is only ever connected to a shell that was created under the name it asked for, and a session keeps its name for ever. Whatever is done about other names (attaching, detaching, killing, the ttl running out, shells exiting) leaves the session of a name, its client, its times and its line in the list exactly as they are, and what a request about a name does and answers depends only on the sessions of that name.", "quantifier": "all histories of any number of clients and requests about any names, all interleavings", "why_tests_cant": "all interleavings of requests about all names", "anchors": ["libshpool/src/daemon/server.rs:Server::handle_attach,Server::select_shell_desc,Server::handle_detach,Server::handle_kill,Server::handle_list", "libshpool/src/daemon/ttl_reaper.rs:run"]}
{"id": "C136", "title": "Programs redraw when a client comes back", "statement": "When a client attaches to a session that has had one before, the programs in the session are told that the size of their terminal changed (even if the new client's terminal is as large as the old one), so that full-screen programs draw again; the terminal is larger for 50 ms, and has the client's size afterwards.", "quantifier": "all histories of a session, all sizes, all schedules", "why_tests_cant": "all sizes and schedules", "anchors": ["libshpool/src/daemon/shell.rs:SessionInner::spawn_shell_to_client,REATTACH_RESIZE_DELAY", "libshpool/src/tty.rs:TtySizeExt::set_fd"]}
{"id": "C137", "title": "A shell that runs can be reached", "statement": "Every shell started for a session that is still running can be reached with shpool: its session is in the table, where list, attach and kill find it by its name. A kill that succeeds leaves none of the shells running it was asked to kill, and one that reports an error removes nothing.", "quantifier": "all interleavings of attach, detach, kill and list requests, shells that exit or cannot be killed, and the ttl reaper", "why_tests_cant": "all interleavings; shells that cannot be killed need another user", "anchors": ["libshpool/src/daemon/server.rs:Server::handle_attach,Server::select_shell_desc,Server::handle_kill", "libshpool/src/daemon/ttl_reaper.rs:run", "libshpool/src/daemon/shell.rs:Session::kill"]}
{"id": "C138", "title": "The message pager has the terminal while it runs", "statement": "What the message pager prints is sent to the client byte for byte and in order, what the user types meanwhile goes to the pager byte for byte and in order, and what was not read from the client when the pager ended is still there for the shell.", "quantifier": "all interleavings of the pager, the client, the relaying thread and the thread waiting for the pager, all ways reads cut up the bytes, all failures", "why_tests_cant": "all interleavings and segmentations", "anchors": ["libshpool/src/daemon/pager.rs:Pager::display"]}
{"id": "C139", "title": "After the pager the terminal is the shell's", "statement": "When an attach goes on after the message pager has exited, everything the pager printed (with its last output it gives back the screen) has been shown to the user, and everything typed after it exited is left for the shell.", "quantifier": "all interleavings of the pager's exit with the relaying thread and the client", "why_tests_cant": "a race between three threads and a process", "anchors": ["libshpool/src/daemon/pager.rs:Pager::display"]}
{"id": "C140", "title": "The pager is gone when the attach goes on", "statement": "When displaying the message has ended, for whatever reason, the pager has ended: it is sent SIGTERM if it has not exited yet and SIGKILL 1270 ms later if it still has not, and no signal reaches another process.", "quantifier": "all interleavings, all reactions of the pager to signals, all reuses of process numbers", "why_tests_cant": "process numbers being reused cannot be provoked in a test", "anchors": ["libshpool/src/daemon/pager.rs:PagerProcGuard"]}
{"id": "C141", "title": "The attach goes on after the pager", "statement": "The message stays as long as the pager runs, the client is there and nothing fails; once the pager has exited, or the client has gone, displaying it comes to its end, whatever is typed or printed meanwhile.", "quantifier": "all fair executions", "why_tests_cant": "executions without end", "anchors": ["libshpool/src/daemon/pager.rs:Pager::display,PagerProcGuard"]}
{"id": "C142", "title": "The wait for a shell to start is bounded", "statement": "Before its prompt is set up a new shell is waited for. The wait is over as soon as the shell has printed the marker (not directly after a beginning of the marker), and only then does it end well; it is over when the shell ends; and it is over 90.5 seconds after it began, whatever the shell prints or does not print, but for the time reading and scanning one piece of output takes. What the shell prints after it is left for the user.", "quantifier": "all outputs of the shell, all ways reads cut it up, all timings", "why_tests_cant": "would have to wait for every shell and every timing", "anchors": ["libshpool/src/daemon/shell_inject.rs:wait_for_startup,maybe_setup"]}
{"id": "C143", "title": "A client whose attach is over is let go", "statement": "When the daemon is done with an attach request, for whatever reason (busy, an error, the shell has exited, a detach), the connection of its client is closed, so that the client ends; it does not wait for output nobody will send.", "quantifier": "all interleavings of attach, detach, kill and list requests, shells that exit, threads that end or are late, and the ttl reaper; every point at which a request can fail", "why_tests_cant": "every point of failure in every interleaving; that something never happens", "anchors": ["libshpool/src/daemon/server.rs:Server::handle_attach,Server::select_shell_desc,Server::handle_detach", "libshpool/src/daemon/shell.rs:SessionInner::bidi_stream,SessionInner::spawn_shell_to_client", "libshpool/src/protocol.rs:Client::read_reply"]}
{"id": "C144", "title": "No connection is leaked", "statement": "A connection stays open only while something still there has it: a request that is not over, a session that is in the table or that a request has, or the running thread of a session. A session that is gone keeps none, and however many clients have come and gone, at most two connections per session that is still there are open without a request that has them.", "quantifier": "all interleavings as in C143", "why_tests_cant": "all histories; a test would have to count descriptors after each of them", "anchors": ["libshpool/src/daemon/server.rs:Server::handle_attach,Server::select_shell_desc", "libshpool/src/daemon/shell.rs:SessionInner::bidi_stream,SessionInner::spawn_shell_to_client"]}
{"id": "C145", "title": "No circle of waiting", "statement": "Whatever is asked of the daemon at the same time, it does not come to a standstill: a request or thread that cannot go on because a lock is taken or a thread has to end first waits, directly or through others, for one that can go on; so that, when nothing can go on any more, everything has finished and no lock is held.", "quantifier": "any number of attach, detach, kill, list, resize, variable and message requests, connections with their threads, pagers, ended shells and the ttl reaper, for any sessions, in all interleavings and with all outcomes of every branch", "why_tests_cant": "a standstill shows only in particular interleavings of particular requests", "anchors": ["libshpool/src/daemon/server.rs:Server", "libshpool/src/daemon/shell.rs:SessionInner::bidi_stream", "libshpool/src/daemon/pager.rs:Pager::display", "libshpool/src/daemon/ttl_reaper.rs:run", "libshpool/src/daemon/exit_notify.rs:ExitNotifier"]}
{"id": "C146", "title": "Who is attached holds up nobody", "statement": "A detach, kill, list, resize, message or variable request is done in the end, and an attach is over (refused or failed) or has its session in the end, however long clients stay attached, pagers are shown, connections are quiet and whatever other requests come, if no attach that has made a session finds, when it looks for it, one that another attach has to do with (the race of C145). No thread of the daemon waits for a lock for ever.", "quantifier": "all fair executions with any number of requests and threads as in C145; nothing is assumed about when, or whether, clients leave", "why_tests_cant": "executions without end; every set of simultaneous requests", "anchors": ["libshpool/src/daemon/server.rs:Server", "libshpool/src/daemon/shell.rs:SessionInner::bidi_stream", "libshpool/src/daemon/pager.rs:Pager::display", "libshpool/src/daemon/ttl_reaper.rs:run"]}
{"id": "C147", "title": "The prompt is the prefix and then the user's own", "statement": "In a session's shell (bash, zsh or fish) every prompt is the configured prefix, once, followed by the prompt the shell would show at that time had the daemon not set it up: the user's own hooks see what they would see, and prompts the user sets are shown.", "quantifier": "all prefixes, all prompts, hooks and commands of the user, seen as arbitrary functions on the state of the shell, and all sequences of commands", "why_tests_cant": "what hooks and commands do is up to the user; the prefix must be put there anew at each of any number of prompts without piling up", "anchors": ["libshpool/src/daemon/shell_inject.rs:maybe_setup"]}
{"id": "C148", "title": "What was logged stays in the log", "statement": "The messages a daemon or client given a log file has written since it started are in that file: all of them at the level asked for, whole and in order, nothing else in between; what other processes do makes no difference.", "quantifier": "all histories of any number of shpool processes that start, with or without that log file, log, are asked for other levels and end; all texts", "why_tests_cant": "which processes share a file, and in which order they start and write, is up to the users", "anchors": ["libshpool/src/lib.rs:run,LogWriterBuilder::make_writer", "libshpool/src/daemonize.rs:maybe_launch_daemon"]}
{"id": "C149", "title": "The log level is the one last asked for", "statement": "A process writes a message just if its level is seen with the level last asked for: by a set-log-level request since it started, else by the count of -v. A request changes the level of the daemon that got it and of no other process. Without a log file a daemon writes to its standard error and a client writes nothing, so that no log text gets into the user's terminal.", "quantifier": "all histories as in C148, all levels, all counts of -v", "why_tests_cant": "all sequences of requests and messages", "anchors": ["libshpool/src/lib.rs:run,LogWriterBuilder::make_writer", "libshpool/src/daemon/server.rs:Server::handle_set_log_level", "shpool-protocol/src/lib.rs:LogLevel"]}
{"id": "C150", "title": "Setting up the shell is not seen", "statement": "In a session whose shell is set up, the user sees nothing of what the daemon types into the shell, of its echo or of what the shell prints meanwhile, until the last of the commands typed has printed its line, and everything from there on: nothing that is typed is itself taken for the output of that command.", "quantifier": "all shells, prefixes, session names, start commands and paths of the binary, all output of the shell between the typed lines, all ways the output is cut into reads", "why_tests_cant": "texts chosen by the user (name, prefix, start command, path) are part of what is echoed", "anchors": ["libshpool/src/daemon/shell_inject.rs:maybe_setup,wait_for_startup", "libshpool/src/daemon/shell.rs:SessionInner::spawn_shell_to_client", "libshpool/src/lib.rs:run", "libshpool/src/consts.rs:PROMPT_SENTINEL,STARTUP_SENTINEL,SENTINEL_FLAG_VAR"]}
{"id": "C151", "title": "An attach in the background disturbs no one", "statement": "Attaching to a session in the background without --force takes no other client's attachment away: it leaves the session in the list, with its shell running and no client, the daemon gives the session back, and whoever else is attached to any session stays attached.", "quantifier": "all sequences of requests of any number of clients around the background attach, all ways the daemon's threads and the client take turns", "why_tests_cant": "between closing its own attachment and asking for the session to be detached by name, any number of other requests can be served", "anchors": ["libshpool/src/attach.rs:Attach::attach_resolved", "libshpool/src/daemon/server.rs:Server::handle_attach,handle_detach"]}
{"id": "C152", "title": "A forced attach gives up only on the terminal it was to replace", "statement": "When attaching with --force gives up because the session already has a terminal that remains attached even after attempting to detach it, that is so: twenty-two requests were refused, and each time because the very client that had the session at first still had it. A request for a session that nobody has is not refused.", "quantifier": "all sequences of requests of any number of clients, forced and not, all ways the daemon's threads and the clients take turns", "why_tests_cant": "between two tries any number of other requests can be served", "anchors": ["libshpool/src/attach.rs:Attach::attach_resolved,MAX_FORCE_RETRIES", "libshpool/src/daemon/server.rs:Server::select_shell_desc,handle_detach"]}
{"id": "C153", "title": "The list shows one moment", "statement": "What shpool list tells about the sessions (which there are, whether they are attached, when a client last came and left, who is attached) is what was the case at one moment while the request was served.", "quantifier": "all histories of the daemon, all ways its threads take turns with the list request, any number of sessions and of clients that come and go meanwhile", "why_tests_cant": "the request looks at the sessions one after the other while clients leave", "anchors": ["libshpool/src/daemon/server.rs:Server::handle_list,handle_attach"]}
{"id": "C154", "title": "Nobody else resizes a session", "statement": "As long as a client is attached to a session, the size of the session's terminal changes only when that client's own terminal is resized; what happens in the terminals of clients that are not attached to it makes no difference.", "quantifier": "all histories of any number of clients that ask, are refused, try again, switch sessions, are detached and whose terminals are resized at any time", "why_tests_cant": "resize requests name a session, and clients send them before they are attached and after they were detached", "anchors": ["libshpool/src/attach.rs:SignalHandler,Attach::run,Attach::attach_resolved", "libshpool/src/daemon/server.rs:Server::dispath_session_message"]}
{"id": "C155", "title": "Resizing a pager touches no other terminal", "statement": "A new window size that is sent while the message of the day is shown in a pager is set on the terminal of that pager and on nothing else.", "quantifier": "all interleavings of the pager's end, of resize requests and of everything else that opens and closes files in the daemon", "why_tests_cant": "depends on which descriptor number is given out in a short time", "anchors": ["libshpool/src/daemon/pager.rs:Pager::display,PagerCltGuard", "libshpool/src/daemon/server.rs:Server::dispath_session_message"]}
{"id": "C156", "title": "A late acknowledgement costs one resize", "statement": "While a message pager is shown, a resize request that fails because something took too long does not keep later ones from being served; a request that is answered with success was answered for the size it asked for.", "quantifier": "all histories of resize requests and all delays", "why_tests_cant": "depends on delays", "anchors": ["libshpool/src/daemon/pager.rs:Pager::display", "libshpool/src/daemon/server.rs:Server::dispath_session_message"]}
{"id": "C157", "title": "Showing a message touches only its pager's terminal", "statement": "While the message of the day is shown in a pager, what the client is shown comes from the pager's terminal and what the user types goes to it; when the pager is over, the daemon closes that terminal and nothing that belongs to somebody else.", "quantifier": "all interleavings of the pager's exit, of the thread that waits for it, of relaying, and of everything else that opens and closes files in the daemon", "why_tests_cant": "depends on which descriptor number is given out in a short time", "anchors": ["libshpool/src/daemon/pager.rs:Pager::display,PagerProcGuard"]}
{"id": "C158", "title": "A session that is gone leaves other sessions' terminals alone", "statement": "The output of a session reaches that session's clients and screen; it is not taken by what is left of a session that was killed, reaped or replaced, and its window size is not changed by it.", "quantifier": "all histories of killing and creating sessions, all interleavings with the old session's reader and with requests to it", "why_tests_cant": "depends on which descriptor number is given out while a thread is between two looks at its channels", "anchors": ["libshpool/src/daemon/shell.rs:SessionInner::spawn_shell_to_client,Session,SessionInner", "libshpool/src/daemon/server.rs:Server::handle_kill,Server::handle_modify_var", "libshpool/src/daemon/ttl_reaper.rs:run"]}
{"id": "C159", "title": "Out of descriptors, the daemon waits", "statement": "When the daemon has as many descriptors open as it may, it waits for one to become free: left alone (nobody connects, nothing is opened, closed or published) the threads that accept clients and event subscribers come to rest after a bounded number of steps, and nobody who has connected is lost.", "quantifier": "every limit, every history of connections, subscriptions, descriptors opened and closed, and events, every interleaving of the two threads", "why_tests_cant": "it is about a process that has run out of a resource, at any point of its accept loops, and about what never happens afterwards", "anchors": ["libshpool/src/daemon/server.rs:Server::serve", "libshpool/src/daemon/events.rs:Sink::run"]}
{"id": "C160", "title": "Sessions that are gone are forgotten", "statement": "What the daemon keeps for the time limits (ttl) of sessions is bounded by the sessions there are: when no session of a name exists or is being made, and its registration has been taken up, neither the name nor a deadline is kept.", "quantifier": "all histories of sessions made, with or without a limit, entered, removed, registered and reaped, at all times", "why_tests_cant": "the daemon runs for months; what accumulates shows in no single test, and a bound is a statement about all histories", "anchors": ["libshpool/src/daemon/ttl_reaper.rs:run", "libshpool/src/daemon/server.rs:Server::spawn_subshell"]}
{"id": "C161", "title": "Switching loses no typing", "statement": "While a client follows its template from one session to another, everything its user types goes to the one or the other, in order and as it was typed: nothing is lost, changed or taken for a command to the client.", "quantifier": "all histories of keys typed and switches, all moments at which a key is typed, all settings of the terminal outside", "why_tests_cant": "the settings of the terminal change twice during a switch, and a key can be typed at any moment of it", "anchors": ["libshpool/src/attach.rs:Attach::run,Attach::attach_resolved", "libshpool/src/protocol.rs:Client::pipe_bytes", "libshpool/src/tty.rs:set_attach_flags,AttachFlagsGuard"]}
{"id": "C162", "title": "What was typed before leaving arrives", "statement": "Whatever an attached client has sent before it leaves (its window is closed, it is killed, its input ends) has been written to the shell when the daemon is done with it, as long as the shell runs and reads.", "quantifier": "all schedules of the threads of a request, all inputs, all moments at which the client leaves", "why_tests_cant": "depends on whether a heartbeat falls between the client's leaving and the daemon's last read", "anchors": ["libshpool/src/daemon/shell.rs:SessionInner::bidi_stream,SessionInner::spawn_client_to_shell,SessionInner::spawn_heartbeat"]}
{"id": "C163", "title": "Resizing the terminal does not end the attach", "statement": "As long as there is input, no error and neither an exit status nor a hint to switch from the daemon, the client stays attached however often and however fast its terminal is resized, and the daemon is told the size the terminal has in the end.", "quantifier": "all schedules of the threads of the client, all moments of resizes, all choices of the thread a signal interrupts", "why_tests_cant": "the kernel chooses the thread that is interrupted; the window is the running time of a signal handler", "anchors": ["libshpool/src/protocol.rs:Client::pipe_bytes", "libshpool/src/attach.rs:SignalHandler::spawn,SignalHandler::handle_sigwinch"]}
{"id": "C164", "title": "A session is never its own screen", "statement": "Wherever clients run, also at the terminals of sessions, following the clients outward from a session (the terminal its client runs at, the client of that session, and so on) comes to an end: at a terminal outside, or in a session nobody is attached to. So what a session prints is shown or kept, and is not relayed for ever.", "quantifier": "all histories of attaches, forced or not, made inside and outside of sessions, of detaches and of sessions that end", "why_tests_cant": "depends on the whole chain of attaches at the moment, over any number of sessions", "anchors": ["libshpool/src/attach.rs:Attach::run,Attach::attach_resolved", "libshpool/src/daemon/server.rs:Server::select_shell_desc", "libshpool/src/daemon/shell.rs:SessionInner::spawn_shell_to_client", "libshpool/src/protocol.rs:Client::pipe_bytes"]}
{"id": "C165", "title": "Sessions start with default signal settings", "statement": "However the daemon was started, the program of a session starts with every signal set to its default and none blocked, as after a login.", "quantifier": "all settings of whoever started the daemon or ran the client that started it, all signals", "why_tests_cant": "settings of signals are inherited from processes the tests do not vary", "anchors": ["libshpool/src/daemon/signals.rs:Handler::spawn", "libshpool/src/daemonize.rs:maybe_launch_daemon,daemonize,become_child", "libshpool/src/daemon/server.rs:Server::spawn_subshell", "libshpool/src/daemon/shell.rs:Session::kill"]}
{"id": "C166", "title": "The kept picture has the session's size", "statement": "When no change of size is pending, the picture of the screen that is kept for a reattach is kept for the size the session's terminal has.", "quantifier": "all histories of attaches, resizes (also while the message of the day is shown), output and detaches", "why_tests_cant": "depends on whether the terminal was resized in the moments before the shell is shown, and shows only at a later reattach", "anchors": ["libshpool/src/daemon/server.rs:Server::handle_attach,Server::spawn_subshell", "libshpool/src/daemon/shell.rs:SessionInner::spawn_shell_to_client", "libshpool/src/session_restore.rs:new,SessionSpool"]}
{"id": "C167", "title": "At a prompt the user sees the session", "statement": "Whatever the shell's start files and the start command given at the attach do, once the shell waits for the user's input its output is shown.", "quantifier": "all start files and start commands (whether they read the terminal, throw away what was typed ahead, or never come back), all orders in which the shell, the programs and the daemon act", "why_tests_cant": "depends on what the programs run at the start of a session do with the terminal's input, and on the time they take", "anchors": ["libshpool/src/daemon/shell_inject.rs:maybe_setup,wait_for_startup", "libshpool/src/daemon/shell.rs:SessionInner::spawn_shell_to_client", "libshpool/src/lib.rs:Commands::Attach"]}
{"id": "C168", "title": "What runs in a session is told when it ends", "statement": "When a session is gone, or the daemon has ended, nothing keeps the session's terminal open from outside: the terminal is hung up, so that what still runs at it is told.", "quantifier": "all histories of sessions and pagers started and removed, of processes started in them, leaving their terminal, ignoring hang-ups and ending, and of the end of the daemon", "why_tests_cant": "depends on which sessions were there when another was started and on what still runs in those", "anchors": ["libshpool/src/daemon/server.rs:Server::spawn_subshell,Server::handle_kill", "libshpool/src/daemon/pager.rs:Pager::display", "libshpool/src/daemon/ttl_reaper.rs:run", "libshpool/src/daemon/signals.rs:Handler::spawn"]}
{"id": "C169", "title": "A session has the agent and the variables of its client", "statement": "Whatever runs in a session finds in the session's directory the forwarded variables of the client the session was started for or is attached to, and reaches that client's ssh agent, or none if it has none.", "quantifier": "all histories of attaches (by clients with and without an agent), starts, detaches, exits and failures, all moments at which something in the session looks", "why_tests_cant": "depends on who had a session of that name before and on whether something looks while the shell is being started", "anchors": ["libshpool/src/daemon/server.rs:Server::handle_attach,Server::link_ssh_auth_sock,Server::populate_session_env_file,Server::spawn_subshell", "libshpool/src/daemon/shell_inject.rs:maybe_setup"]}
{"id": "C170", "title": "A client shown as attached can be detached", "statement": "When a session that the list shows as attached is detached (by a detach request, or by an attach with --force), the request that has it ends, whatever its user does or does not do, and the session can be attached again.", "quantifier": "all histories of attaches, messages shown, detaches, kills and exits, all executions fair to the daemon's threads, all behaviours of the users", "why_tests_cant": "depends on how far the attach of the client has got when the detach request comes, and on how long a user reads", "anchors": ["libshpool/src/daemon/server.rs:Server::handle_attach,Server::handle_detach,Server::handle_list", "libshpool/src/attach.rs:attach_resolved", "libshpool/src/daemon/show_motd.rs:DailyMessenger::display_in_pager"]}
{"id": "C171", "title": "The list can be had whatever the clock shows", "statement": "Whatever the system clock shows and however it is set while the daemon runs, a list request is answered and tells of every session when it was started, last connected and last disconnected; and these times fit: nobody connected before the start, whoever is attached connected after the last disconnection, and when nobody is, the last disconnection came after the last connection.", "quantifier": "all clocks (any time shown at any instant), all histories of attaches, detaches, kills and exits", "why_tests_cant": "depends on what the clock showed when something happened, perhaps weeks ago, and on its being set in between", "anchors": ["libshpool/src/daemon/server.rs:Server::handle_list,Server::spawn_subshell", "libshpool/src/daemon/shell.rs:SessionLifecycle"]}
{"id": "C172", "title": "The answer to a session message is true", "statement": "When a client asks by name to resize or detach a session, the answer says what happened: NotFound only if no session had the name, NotAttached if the session has no client, Ok only if a session that had the name has been given the size, or has lost its client; and no other session is touched.", "quantifier": "all histories of requests, of sessions created (also in place of one of the same name) and removed, of clients coming and going and of pagers shown and ended, in all orders of their steps", "why_tests_cant": "depends on what happens to the session table between the two times the request looks into it", "anchors": ["libshpool/src/daemon/server.rs:Server::handle_session_message,Server::dispath_session_message", "shpool-protocol/src/lib.rs:SessionMessageReply", "libshpool/src/daemon/pager.rs:PagerCltGuard"]}
{"id": "C173", "title": "Who owns the event bus can close it", "statement": "When the owner of the event bus lets it go, that ends, whatever publishers and subscribers do; after it no subscriber is connected or can connect, the socket file is gone, what was published before has been broadcast, and publishing neither waits nor fails.", "quantifier": "all histories of publishers, subscribers and the bus's thread, all behaviours of the subscribers' connections, all moments of letting go, panics and errors included; all fair executions", "why_tests_cant": "depends on what the thread is doing when it is told to stop and on what others publish meanwhile", "anchors": ["libshpool/src/daemon/events.rs:EventBusHandle,EventBus::publish,Sink::run,ListenerGuard", "libshpool/src/daemon/mod.rs:run"]}
