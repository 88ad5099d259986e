#!/usr/bin/env python3
"""Writes /verif/properties.jsonl.  One row per property; keep ids stable."""
import json, os
L = "libshpool/src/"
D = L + "daemon/"
P = []
def p(id, title, statement, quantifier, why, *anchors):
    P.append(dict(id=id, title=title, statement=statement, quantifier=quantifier,
                  why_tests_cant=why, anchors=list(anchors)))

# ---- wire framing -------------------------------------------------------
p("C01", "Frame round trip",
  "Any frame the daemon writes to an attached client (data, heartbeat, exit status or switch hint) whose payload fits the client's read buffer is read back by the client with the same kind and the same payload, and the reader leaves the bytes that follow the frame unread.",
  "every frame kind, every payload up to 2^32-1 bytes, every buffer at least as long as the payload, every suffix of further bytes",
  "payloads and suffixes range over unboundedly many byte strings",
  L+"protocol.rs:Chunk::write_to,Chunk::read_into", "shpool-protocol/src/lib.rs:ChunkKind")
p("C02", "Frame stream is independent of socket segmentation",
  "If the daemon writes a sequence of frames, the client decodes exactly that sequence of frames in that order, no matter how the kernel cuts the byte stream into read results.",
  "every sequence of frames and every way of cutting the byte stream into non-empty segments",
  "the number of segmentations is exponential in stream length; tests exercise only loopback timing",
  L+"protocol.rs:Chunk::read_into,Chunk::write_to")
p("C03", "Frame decoder safety on arbitrary bytes",
  "Reading a frame from arbitrary (hostile or truncated) bytes either fails, or returns one of the four kinds with a payload no longer than the caller's buffer after consuming exactly the bytes of that frame. A kind byte above 3 fails, a declared length above the buffer fails, a truncated frame fails.",
  "every byte string, every buffer size", "the input space is all byte strings",
  L+"protocol.rs:Chunk::read_into", "shpool-protocol/src/lib.rs:ChunkKind::try_from")
p("C04", "Frame encoding is unambiguous",
  "Two different sequences of frames never produce the same byte stream, and no frame's encoding is a proper prefix of another frame's encoding.",
  "all pairs of frames / frame sequences", "quantifies over pairs of unbounded byte strings",
  L+"protocol.rs:Chunk::write_to")
p("C05", "Every frame the daemon emits is accepted by the client",
  "Every frame the daemon writes to an attached client can be decoded by the shipped client, whose read buffer is 16384 bytes.",
  "all shell output, all variable tables, all message-of-the-day texts, all screen restore buffers",
  "sizes of the variable table, of the motd text and of restore buffers are unbounded",
  D+"shell.rs:spawn_shell_to_client", D+"show_motd.rs:DailyMessenger::dump", L+"protocol.rs:Client::pipe_bytes", L+"consts.rs:BUF_SIZE")
p("C06", "Version comparison",
  "Comparing client and daemon versions is a total preorder on well formed versions x.y.z that looks at the minor number when both majors are 0 and at the major number otherwise, never looks at the patch number, swapping the arguments reverses the answer, and anything that is not three dot separated integers is rejected.",
  "all pairs (and triples) of version strings", "infinitely many version strings; transitivity is about triples",
  L+"protocol.rs:Client::version_ord,Client::new")
# ---- trie / keybindings -------------------------------------------------
p("C07", "Trie refines a finite map with prefix status",
  "After any sequence of insertions, looking up a key sequence symbol by symbol yields the value most recently inserted for exactly that sequence if any; the cursor reports `partial` exactly for proper non-terminal prefixes of inserted keys and reports no-match for everything else, and stays at no-match.",
  "all insertion histories (including duplicates and the empty key) and all query sequences",
  "insertion histories and queries are unbounded", D+"trie.rs:Trie::insert,Trie::advance,Trie::get,Trie::contains")
p("C08", "Every keybinding in the documented grammar is understood as written",
  "Every keybinding spec generated by the documented grammar (chords of an optional Ctrl- and one key, separated by spaces) is accepted and yields exactly the chords that were written, whatever extra white space is used.",
  "all chord sequences and all legal spacings", "the grammar generates infinitely many specs",
  D+"keybindings.rs:Lexer,parse,Chord::check_valid")
p("C09", "Malformed keybindings are rejected",
  "A keybinding spec outside the documented grammar (unknown key, Ctrl without a key, Ctrl-Ctrl, two plain keys in one chord, doubled or dangling dash, cut off key name) is rejected with an error.",
  "all strings not in the grammar", "the complement of the grammar is infinite",
  D+"keybindings.rs:Lexer,parse,Chord::check_valid,Bindings::new")
p("C10", "Chords map to the bytes terminals send",
  "Each chord Ctrl-<key> of the documented table is bound to the byte an ASCII terminal sends for it (letter -> letter number, Space/@/2 -> 0, [ -> 27, ...), and a plain key to its own byte.",
  "all chords of the grammar", "finite per chord, but a table test that mirrors the table proves nothing; the oracle must be independent (ASCII arithmetic)",
  D+"keybindings.rs:CONTROL_CODES,Chord::key_code")
p("C11", "A keybinding action fires only on its own key sequence",
  "Whenever the daemon takes a keybinding action, the bytes most recently typed are exactly the byte sequence of one configured binding with that action.",
  "all binding configurations, all input histories", "input histories are unbounded and reads may split anywhere",
  D+"keybindings.rs:Bindings::transition,Bindings::new")
p("C12", "A typed keybinding always fires",
  "Typing the byte sequence of a configured binding triggers its action, whatever was typed before.",
  "all binding configurations, all input histories", "requires reasoning about every matcher state reachable by any prefix",
  D+"keybindings.rs:Bindings::transition,Bindings::new")
p("C13", "Keystroke handling does not depend on how reads are split",
  "The bytes that reach the shell and the actions that fire depend only on the sequence of bytes typed, not on how the socket splits it into reads.",
  "all binding configurations, inputs and segmentations", "exponentially many segmentations",
  D+"shell.rs:SessionInner::spawn_client_to_shell,snip_buf")
p("C14", "Input transparency",
  "As long as no keybinding fires, the bytes written to the shell followed by the bytes still withheld as a possible binding prefix are exactly the bytes received, in order; withheld bytes form a proper prefix of some configured binding.",
  "all binding configurations, inputs and segmentations", "unbounded inputs and segmentations",
  D+"shell.rs:SessionInner::spawn_client_to_shell,snip_buf")
p("C15", "A swallowed keybinding removes exactly its own bytes",
  "When a binding with the no-op action fires, the bytes of that binding are not delivered to the shell and every other byte typed is delivered exactly once and in order.",
  "all binding configurations, inputs and segmentations", "boundary depends on where in a read the binding starts and ends",
  D+"shell.rs:SessionInner::spawn_client_to_shell,snip_buf")
p("C16", "Input typed before a detach keybinding reaches the shell",
  "Bytes typed before the detach keybinding are delivered to the shell before the client is detached.",
  "all inputs and segmentations", "depends on whether they share a read with the binding",
  D+"shell.rs:SessionInner::spawn_client_to_shell")
p("C17", "The input path cannot crash the session",
  "No sequence of client bytes under any binding configuration makes the keystroke filter panic (slice bounds, assertion, underflow), and it never writes more bytes than it received.",
  "all binding configurations, inputs and segmentations", "the assertion guards are data dependent",
  D+"shell.rs:snip_buf,SessionInner::spawn_client_to_shell")
# ---- output path --------------------------------------------------------
p("C18", "Output relay is lossless and ordered",
  "While a client is attached (its socket accepts writes and prompt setup is over), the data it receives is the restore snapshot taken at attach time followed by exactly the shell's output from then on, in order, without loss or duplication.",
  "all interleavings of shell output, resizes, heartbeats and switch hints", "event interleavings are unbounded",
  D+"shell.rs:SessionInner::spawn_shell_to_client")
p("C19", "Shell output survives being detached",
  "The text fed to the session-restore engine is exactly the shell's visible output, independent of when clients attach, detach, crash or are replaced.",
  "all schedules of client connects and disconnects", "all schedules / crash points of clients",
  D+"shell.rs:SessionInner::spawn_shell_to_client")
p("C20", "Prompt setup noise is hidden and nothing else",
  "When prompt injection is used, output up to and including the prompt sentinel is hidden from clients and from the restore engine and every byte after it is shown; without prompt injection everything is shown. The result does not depend on how the pty output is cut into reads.",
  "all shell outputs and segmentations", "the sentinel may straddle reads in any way",
  D+"shell.rs:SessionInner::spawn_shell_to_client", D+"shell_inject.rs:SentinelScanner")
p("C21", "An exit frame is sent at most once and is the last frame",
  "On each client connection the daemon sends at most one exit-status frame and sends nothing after it.",
  "all schedules of attach, detach, takeover, shell exit", "all interleavings",
  D+"shell.rs:SessionInner::spawn_shell_to_client,write_exit_chunk")
p("C22", "Detach requests report what happened",
  "A detach request is answered `detached` exactly when a client was attached at that time and afterwards no client is attached; repeating it is answered `not attached`; the session and its output history are unaffected.",
  "all histories of the session", "all histories", D+"shell.rs:SessionInner::spawn_shell_to_client")
p("C23", "Terminal size converges to the last request",
  "Once no resize is pending, the size of the session's pty equals the size in the most recent attach or resize request.",
  "all histories of attaches and resizes and all delays", "unbounded histories and timing",
  D+"shell.rs:SessionInner::spawn_shell_to_client,ResizeCmd")
p("C24", "Client exits with the shell's status and prints exactly the data",
  "The attach client prints exactly the concatenation of the data frames received, and if an exit-status frame was read before any fallback its exit code is that status; otherwise it is 1.",
  "all frame sequences and all thread interleavings of the client", "thread interleavings",
  L+"protocol.rs:Client::pipe_bytes", L+"attach.rs:Attach::attach_resolved")
# ---- small languages ----------------------------------------------------
p("C25", "Colon durations",
  "A ttl written mm:ss, hh:mm:ss or dd:hh:mm:ss (two to four decimal numerals joined by colons) denotes s + 60 m + 3600 h + 86400 d seconds.",
  "all decimal numerals whose total fits 64 bits", "infinitely many numerals",
  L+"duration.rs:parse_colon_duration,parse")
p("C26", "Suffix durations",
  "A ttl written as a decimal number followed by s, m, h or d denotes that many seconds, minutes, hours or days.",
  "all decimal numerals whose total fits 64 bits", "infinitely many numerals", L+"duration.rs:parse_suffix_duration")
p("C27", "Malformed durations are rejected without crashing",
  "Any ttl string outside the two documented formats, or too large to represent, produces an error message rather than a panic or a wrong duration.",
  "all strings", "all strings", L+"duration.rs:parse")
p("C28", "Template parsing keeps the text",
  "An accepted session-name template, rendered back with each substitution as {name}, is the original source text; literal text never contains an opening brace.",
  "all template strings", "all strings", L+"template.rs:Template::new")
p("C29", "Template instantiation is substitution",
  "Instantiating a template replaces every {name} by the value of name (empty if unset), leaves all other text alone, does not re-expand inserted values and depends only on the variables named in the template.",
  "all templates and variable tables", "all strings and tables", L+"template.rs:Template::apply")
p("C30", "Template well-formedness is decided exactly",
  "A template is accepted if and only if every opening brace starts a {identifier} group where an identifier is a non-empty run of alphanumerics and underscores not starting with a digit; the parse is unique.",
  "all strings", "all strings", L+"template.rs:Template::new")
p("C31", "/etc/environment parsing",
  "Each simple KEY=value line contributes exactly that pair in file order, comment and blank lines contribute nothing, one malformed line never affects the others, keys are always non-empty and made of ASCII letters, digits and underscores, and values never contain a # or a newline.",
  "all files", "all files", D+"etc_environment.rs:parse_compat")
p("C32", "Configuration precedence",
  "For every setting, the effective value is the one from the highest-precedence file that mentions it (user file over system file) and files that do not mention a setting never disturb it; merging is associative and an absent or empty file is neutral.",
  "all contents of all configuration layers", "product of all settings and layers",
  L+"config.rs:Config::merge,Manager::load")
p("C33", "A broken configuration edit does not disturb a running daemon",
  "If on reload any configuration file fails to parse, the daemon keeps serving with the last good configuration; after the file is fixed the next reload takes effect.",
  "all histories of file edits and reloads", "all histories", L+"config.rs:Manager::new,Manager::load")
p("C34", "Configuration reload debounce loses no change",
  "Every change of a watched configuration file is followed by a reload that starts after the change and no later than one debounce period after the first unserved change; bursts are coalesced.",
  "all sequences and timings of file events", "timing sequences are unbounded",
  L+"config_watcher.rs:ConfigWatcherInner::run,trigger_reload,handle_event")
p("C35", "Watched paths are never forgotten",
  "Every path that was asked to be watched remains watched (itself or its nearest existing ancestor) after any sequence of file system events.",
  "all sequences of file events", "all histories", L+"config_watcher.rs:ConfigWatcherInner::rewatch,watch_and_add")
# ---- names, paths, env --------------------------------------------------
p("C36", "Session names stay inside the runtime directory",
  "For every session name the daemon accepts, the session's directory is a direct child of <runtime dir>/sessions and different names have different directories.",
  "all strings", "all strings", D+"server.rs:Server::handle_attach,Server::session_dir")
p("C37", "Client and daemon agree on session names",
  "The client rejects a resolved session name locally exactly when the daemon would reject it.",
  "all strings", "all strings", L+"attach.rs:Attach::attach_resolved", D+"server.rs:Server::handle_attach")
p("C38", "Environment precedence in new sessions",
  "In a new session each environment variable has the value given by the highest-precedence source that defines it (/etc/environment, then forwarded client variables, then TERM, then the config's env table, then the daemon's base variables), and no variable appears that no source defines.",
  "all contents of all environment sources", "product of sources", D+"server.rs:Server::build_shell_env", L+"attach.rs:dial_attach")
p("C39", "TERM rules",
  "A new session's TERM is the config's env TERM if set (unset if it is the empty string), otherwise the attaching client's TERM.",
  "all environments", "product of sources", D+"server.rs:Server::build_shell_env")
p("C40", "SSH agent socket path is stable across reattach",
  "Unless overridden in the configured env table or /etc/environment, SSH_AUTH_SOCK inside a session is a path that depends only on the session name and runtime directory, so every later attach can repoint it.",
  "all environments and all attaches", "product of sources and histories", D+"server.rs:Server::build_shell_env,link_ssh_auth_sock,ssh_auth_sock_symlink")
p("C41", "Start directory resolution",
  "The start directory is --dir if given (with . meaning the client's cwd), otherwise the configured default dir (with . meaning the cwd and $HOME or nothing meaning the home directory).",
  "all flag / config combinations", "all strings", L+"attach.rs:dial_attach", D+"server.rs:Server::spawn_subshell")
p("C42", "Implicit target of kill and detach",
  "kill/detach without names act on the session they run in, with names on exactly those, and with neither fail without sending the daemon any request; they exit successfully iff every named session was found (and, for detach, attached).",
  "all argument lists and environments and replies", "all lists", L+"common.rs:resolve_sessions", L+"kill.rs:run", L+"detach.rs:run")
p("C43", "Session variables behave like a map",
  "After any history of variable changes, reading the variables returns exactly the last value set for each name that was not later unset, starting from the configured defaults; each change is answered and pushed to every live session with the state right after it.",
  "all histories of variable operations and interleavings of clients", "all histories",
  D+"server.rs:Server::handle_modify_var,Server::handle_get_vars", L+"var.rs:run")
# ---- server concurrency -------------------------------------------------
p("C44", "At most one client per session",
  "At any time at most one client is attached to a session; attaching to a session with an attached client is answered busy and disturbs nobody.",
  "all interleavings of all concurrent connections", "thread interleavings", D+"server.rs:Server::select_shell_desc")
p("C45", "Kill and detach replies partition the request",
  "A kill (detach) reply lists exactly the requested names that had no session (and, separately, those with no client); the sessions not listed are gone (detached) afterwards; all other sessions are untouched.",
  "all requests and all session tables", "all lists and tables", D+"server.rs:Server::handle_kill,Server::handle_detach")
p("C46", "Lifecycle events account for the session table",
  "At every moment the number of sessions in the table equals the number of created events minus the number of removed events published so far.",
  "all interleavings of all requests", "thread interleavings", D+"server.rs:Server::handle_attach,handle_kill,select_shell_desc", D+"ttl_reaper.rs:run")
p("C47", "Sessions do not vanish",
  "A session with a live shell leaves the session table only because it was killed or its ttl ran out.",
  "all interleavings of all requests", "thread interleavings", D+"server.rs:Server::select_shell_desc,handle_attach", D+"ttl_reaper.rs:run")
p("C48", "Daemon never deadlocks",
  "From every reachable state of concurrently running attach, detach, kill and list requests, some request can make progress, and the session table lock is eventually released.",
  "all interleavings", "thread interleavings", D+"server.rs:Server::select_shell_desc,handle_attach")
p("C49", "List reports true attachment status",
  "list reports a session as attached exactly when an attach request currently owns it, and lists every session exactly once.",
  "all interleavings", "thread interleavings", D+"server.rs:Server::handle_list")
p("C50", "Attach and detach timestamps",
  "For every listed session the reported last-connected time is that of the latest attach and the last-disconnected time that of the latest detach since creation, and an attached session has last-connected not older than last-disconnected.",
  "all histories", "all histories", D+"shell.rs:SessionLifecycle", D+"server.rs:Server::handle_list")
# ---- events bus ---------------------------------------------------------
p("C51", "Subscribers see whole events in order",
  "What a subscriber receives is a prefix of the concatenation of the JSON lines of the events broadcast since it was accepted, in publish order, with no gaps and no duplicates, for every pattern of short writes.",
  "all event sequences and all short-write / would-block patterns", "unbounded write patterns", D+"events.rs:drive_pending,SubscriberWriter,Sink::run")
p("C52", "No event wake-up is lost",
  "Whenever an event is queued and no publisher is mid-call, the sink either is already processing or will be woken; when it next goes idle the queue is empty.",
  "all interleavings of publishers with the sink", "thread interleavings", D+"events.rs:EventBus::publish,Sink::run")
p("C53", "A slow subscriber harms only itself",
  "A subscriber's backlog never exceeds 64 events, only a subscriber whose backlog is full or whose socket failed is dropped, and what one subscriber receives does not depend on the others.",
  "all event sequences, all subscriber behaviours", "unbounded histories", D+"events.rs:Sink::run,SubscriberWriter::enqueue")
p("C54", "Events after connecting are delivered",
  "Every event published after a subscriber's connect returns is delivered to it unless it is dropped for being slow or the channel overflows.",
  "all interleavings of connect, publish and sink", "thread interleavings", D+"events.rs:Sink::run")
# ---- ttl ---------------------------------------------------------------
p("C55", "No session is reaped before its ttl",
  "The reaper kills a session only for a registration of that name whose deadline has passed, and reaps in deadline order.",
  "all registration histories and timings", "unbounded histories", D+"ttl_reaper.rs:run,Reapable")
p("C56", "A newer ttl supersedes an older one",
  "If a name is registered again, no later reap is caused by the older registration.",
  "all registration histories and timings", "unbounded histories", D+"ttl_reaper.rs:run")
p("C57", "Only sessions with a ttl are reaped, and they are reaped",
  "A session created without ttl is never killed by the reaper; a session created with ttl is killed once its ttl elapsed.",
  "all histories of creates, kills, exits and timings", "unbounded histories and races", D+"ttl_reaper.rs:run", D+"server.rs:Server::select_shell_desc,spawn_subshell")
p("C58", "Exit notification is a latch",
  "Once the shell's exit has been announced every present and future waiter obtains the status; before that every poll reports still running.",
  "all interleavings of notify and waits", "thread interleavings", D+"exit_notify.rs:ExitNotifier")
# ---- client side loops --------------------------------------------------
p("C59", "Forced attach is bounded",
  "A forced attach against a busy session issues at most one detach request, retries a bounded number of times, and fails with an error if still busy; without force a busy session is reported at once and never detached.",
  "all reply sequences", "all reply sequences", L+"attach.rs:Attach::attach_resolved")
p("C60", "Templated attach follows its variables",
  "A templated attach is always attached to the session named by its template under the latest variables it was told about; it switches exactly when an update changes the resulting name.",
  "all histories of variable updates", "all histories", L+"attach.rs:Attach::run,attach_resolved", L+"protocol.rs:Client::pipe_bytes")
p("C61", "Peer credential check",
  "A connection is served only if the peer runs as the daemon's own user; a rejected attach is told it is forbidden and nothing else happens.",
  "all peers and requests", "all requests", D+"server.rs:Server::handle_conn,check_peer")
p("C62", "Session table output is aligned",
  "Every row of the plain text session list starts with the padded session name so that all rows have their second column at the same byte offset and the names can be read back.",
  "all session tables", "all names", L+"list.rs:run")
p("C63", "Autodaemonize waits boundedly and starts one daemon",
  "The client launching a daemon polls with doubling delays: in total at most 5110 ms by default, with each delay at most 2 s when no timeout is used; of all daemons racing on one pid file at most one survives.",
  "all schedules of racing daemons, all connect outcomes", "races", L+"daemonize.rs:maybe_launch_daemon,daemonize")
p("C64", "Pager is exclusive and hands back the final size",
  "At most one message pager runs per session, its control slot is free again after it ends for any reason, and the session starts with the last terminal size announced while paging.",
  "all histories of pager runs and resizes", "all histories", D+"pager.rs:Pager::display,PagerCtlGuard")
p("C65", "Daily message debounce",
  "With a monotone clock, two message-of-the-day displays are never closer together than the configured interval, and the first one is shown at once.",
  "all timings", "all timings", D+"show_motd.rs:Debouncer")
p("C66", "Kill escalates",
  "Killing a session sends a hangup first, sends the kill signal only if the shell is still alive after the grace period, treats an already dead process as success and reports any other signalling failure.",
  "all process behaviours", "timing and errno combinations", D+"shell.rs:Session::kill")
p("C67", "Every injected script announces the end of setup",
  "For every shell type, prompt prefix, session name and start command, the injected setup script ends with the command that prints the prompt sentinel, contains the start command as a line exactly when one is configured, and is empty of any start command otherwise.",
  "all strings", "all strings", D+"shell_inject.rs:maybe_setup")
p("C68", "Line endings in the raw message of the day",
  "The raw-mode message of the day is the original text with every line terminated by line feed and carriage return, losing no other byte.",
  "all texts", "all texts", D+"show_motd.rs:DailyMessenger::convert_to_raw")
p("C69", "Scrollback size selection",
  "The number of scrollback lines kept is the configured output_spool_lines if set, else the number in a `lines` restore mode, else 500; the simple mode keeps none and restores nothing.",
  "all configurations", "all numbers", D+"server.rs:Server::spawn_subshell", "shpool_pty? session_restore", L+"session_restore.rs:new")
p("C70", "Bounded sleeping helper",
  "The interruptible sleep returns early iff its condition held at a poll, otherwise sleeps at least the requested time and never overshoots the deadline by a sleep; the condition is checked at least once.",
  "all clocks and conditions and poll strategies", "all timings", L+"common.rs:sleep_unless")
for x in P:
    x["anchors"] = [a for a in x["anchors"] if "?" not in a]
out = os.path.join(os.path.dirname(os.path.abspath(__file__)), "..", "properties.jsonl")
extra = os.path.join(os.path.dirname(os.path.abspath(__file__)), "properties_extra.py")
if os.path.exists(extra):
    exec(open(extra).read())
with open(out, "w") as f:
    for x in P:
        f.write(json.dumps(x, ensure_ascii=False) + "\n")
print(len(P))
