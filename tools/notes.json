{
 "C08": {
  "note": "False for Ctrl-1 and Ctrl-9, which the grammar allows but the code table lacks (C08_false). Proved for every other chord, any white space, any number of bindings. C08_exact: exactly the specs without Ctrl-1 and Ctrl-9."
 },
 "C09": {
  "note": "False: a dangling dash, a cut-off key word and an empty spec are accepted (C09_false). Proved: the exact set of accepted configurations."
 },
 "C10": {
  "note": "False for Ctrl-x/Ctrl-y, whose codes are swapped in the table (C10_false). Proved for all other keys. C10_exact: exactly the letters other than x and y."
 },
 "C12": {
  "note": "False in general: the failing byte is not retried, a prefix binding shadows a longer one, and aliases of one byte disable a binding. Proved from an idle engine without aliasing or shadowing. C12_engine gives every answer to every input by a specification that knows only the list of bindings (the chord written last for a byte, the action written last for a sequence); C12_exact says exactly which bytes fire an action."
 },
 "C13": {
  "note": "False when a binding starts at the second byte of a read (C13_false). Proved otherwise. C13_exact: cutting the input into reads makes no difference exactly when no read begins with a byte to pass on directly followed by a binding that fires."
 },
 "C15": {
  "note": "False when a binding starts at the second byte of a read (C15_false). Proved otherwise, and unconditionally for one byte per read. C15_exact: exactly what the shell gets — the ideal output, except that a read which begins with a byte to pass on directly followed by a binding that fires loses that byte. C15_exact_loss: as many bytes are missing as there are such reads."
 },
 "C16": {
  "note": "False when the input shares a read with the detach sequence (C16_false). Proved when the read begins with or inside the detach sequence; in general only bytes of that read are lost. C16_exact: exactly what was delivered when the detach binding fires."
 },
 "C27": {
  "note": "False of the code: overflow panics or wraps and text between number and unit is ignored (C27_false). Proved: the exact form and value of everything accepted under overflow checks; that without them (the release profile) the parser never panics and differs only where the other one does; and that a string without a colon not ending in s, m, h or d is rejected. C27_exact_…: for each documented form, the value, the refusal, the crash or the wrong value, as a function of the numbers."
 },
 "C54": {
  "note": "False for a subscriber that connects while the sink is emptying its channel (C54_false), and for one whose connection the daemon cannot accept at first because accept(2) fails (C54_false_accept). Proved when no broadcast is in progress at the connect and no failing accept passes the subscriber over. Over time, in every fair execution: C54_fair_partial. C54_exact: a subscriber gets every event since its connect if and only if none of them was taken from the channel before its connection was accepted."
 },
 "C56": {
  "note": "False while the newer registration is still in the channel (C56_false): the reaper may serve its timer first and kill the new session for the old deadline. Proved from the moment the newer registration is received. C56_exact: it happens exactly if a registration of the name is on its way to the reaper at that moment."
 },
 "C57": {
  "note": "Both halves are false in general (C57_false_ttlless_killed: name reuse; C57_false_never_reaped: deadline passes before the session is in the table). Proved: a name never registered is never reaped; a session inserted before its deadline whose registration is the latest of its name is reaped (C57_reaped_partial: the reaper can always go on to do so; C57_fair_partial: in every execution in which time goes on and the reaper is not starved it does). Exactly: C57_takes_exact (what a served entry takes away), C57_exact (a session left alone leaves the table, in every fair execution, exactly if the reaper has a registration of its name before it, its own or another one's), C57_never (otherwise no step of the reaper ever takes it until the name is registered again)."
 },
 "C58": {
  "note": "A wait that timed out just before the announcement still returns nothing (C58_false). Proved: all other present waiters and all future waiters obtain the status; nothing is reported before; in every fair execution a thread waiting when the exit is announced obtains the status and a wait with a timeout comes back (C58_fair, C58_fair_timed). C58_exact: a wait that slept returns \"still running\" exactly if its own timeout passed before the first announcement during the wait, and otherwise the status announced last."
 },
 "C31": {
  "note": "False for a line that is not UTF-8 (even a comment): the whole file is refused (C31_false). Proved for all UTF-8 files. C31_exact: the file is refused exactly if a byte of it is not UTF-8."
 },
 "C39": {
  "note": "False if /etc/environment sets TERM, which overrides the config (C39_false). Proved otherwise. C39_rule gives TERM in every case, C39_exact exactly when it is the one asked for."
 },
 "C72": {
  "note": "False if a value contains a line feed (C72_false). Proved otherwise. C72_exact: the file gives the variables back exactly if no name has an equals sign and no name or value a line feed."
 },
 "C34": {
  "note": "False for removed files (C34_false: a file loaded while its directory was not yet watched and removed before it is). Proved: no change of an existing file is lost, a due reload is never postponed, reloads are a debounce period apart; over time, in every fair execution, a reload asked for happens (C34_fair_reload) and the last content of a file is loaded for good (C34_fair_partial, C34_fair_single_partial). C34_repaired: with the repair of C35_repaired, no change of an existing file would be lost for any number of files."
 },
 "C35": {
  "note": "False: a rescan with two existing files forgets one (C35_false), so do a shared missing directory, a moved directory and a race in the ancestor search (C35_false_*). Proved for one file, and for several if no event concerns two of them. C35_repaired: had rewatch looked at every entry an event concerns and kept the watches, every path asked for would be watched, for any number of files, short of moving whole directories."
 },
 "C73": {
  "note": "False if both standard files are the same file (C73_false: XDG_CONFIG_DIR=/etc). Proved otherwise. C73_exact says exactly when the daemon starts."
 },
 "C74": {
  "note": "False: XDG_CONFIG_DIR is consulted instead of XDG_CONFIG_HOME (C74_false). Proved if both agree or neither is set. C74_exact: the documented files are read exactly if both variables lead to the same directory."
 },
 "C05": {
  "note": "False for a message of the day or a switch hint of more than 16384 bytes (C05_false, C05_false_switch_hint). Proved for all other frames and for such texts up to that size. For the table of variables: the frame fits if names and values are short enough (C05_small_tables_partial) and never fits once they are 16384 bytes (C05_false_large_tables). C05_exact: the client takes exactly the frames of at most 16384 bytes; the longer ones carry only a message of the day or the switch hint."
 },
 "C18": {
  "note": "False at the end of a session: output the shell wrote just before exiting is dropped if the hangup is noticed first (C18_false). Proved: what is read is relayed to a working client in order, without loss or duplication, after the snapshot and the message of the day; in every fair execution unread output reaches a client that stays attached (C18_fair_partial). C18_exact: the client received everything but what was still unread when the end was noticed."
 },
 "C20": {
  "note": "False if the text before the sentinel ends in a beginning of the sentinel (C20_false). Proved otherwise; segmentation never matters; nothing is shown before a complete sentinel. C20_exact: exactly if what precedes the sentinel falls into tries the scanner can tell from it."
 },
 "C22": {
  "note": "False for a detach request that reaches a new session before its first client (C22_false). Proved for requests handled later. The rendezvous with the thread is in the handshake model. C22_exact: the detach is misreported exactly if it is handled before the first client."
 },
 "C75": {
  "note": "False: changing the motd mode between creation and first output of a session panics its output thread (C75_false); in builds with overflow checks so does a terminal with 65535 rows or columns. Proved for sessions that do not dump the message of the day, which go on exactly as if nothing had been edited but for the text of restore snapshots (C75_independent_partial), and for those that do while the mode stays (C75_dump_partial). Exactly: the thread panics iff it shows its first output while the message of the day is to be dumped and the mode is another, or, with overflow checks, a terminal of 65535 rows or columns attaches (C75_exact)."
 },
 "C76": {
  "note": "False: a requester that gives up waiting for an acknowledgement leaves the shell-to-client thread blocked in sending it for ever (C76_false, C76_wedged_forever); a following `shpool detach` then blocks the whole daemon (C76_false_untimed). Proved: recovery while every acknowledgement is in time (C76_recovers_partial; C76_fair_partial: in every fair execution every request ends), a request with time limits ends in every fair execution whatever the state of the session (C76_timed_ends), and answers are never mixed up. C76_exact: exactly the states from which the thread can take another request or end; C76_exact_goes_on: exactly those from which it can take another request."
 },
 "C63": {
  "note": "False after a crash: two clients that both find the socket file of a dead daemon can remove each other's new socket, and two daemons serve (C63_false). Proved: the waiting times, the lock on the pid file, and one daemon as long as none crashes. C63_cause: whenever two daemons serve, one had crashed, and the socket file of one of the two was taken away by somebody who had seen nobody listening. C63_repaired: were the lock kept as long as the daemon lives and the left-over file left to the daemon, at most one daemon would serve in every history, crashes included."
 },
 "C65": {
  "note": "False for an interval of 2^62 seconds or more, which makes the daemon panic at start (C65_false). Proved otherwise. C65_exact: exactly if twice the interval before now is a time the clock can hold."
 },
 "C70": {
  "note": "False for a back-off whose maximal interval is zero: it polls without sleeping (C70_false_spin). Everything else proved. C70_exact: a strategy that does not shrink polls without sleeping exactly when it is a growing back-off with a maximal interval of zero; C70_spins says what that is like (any number of polls at one moment)."
 },
 "C77": {
  "note": "False: the shell of a detached session is reaped on exit while the session stays in the table; its process number can be reused and gets the signal (C77_false). Proved while the shell has not been reaped. C77_exact: a kill hits whoever has the process number after the history (read off the history); C77_cause: a wrong process is hit only if the end of the session's own shell was collected while the session stayed in the table."
 },
 "C78": {
  "note": "False for names with a quotation mark, backslash, dollar sign, backquote, exclamation mark or (zsh) percent sign (C78_false, C78_false_each). Proved for all other names and bash, zsh and fish, with the default prefix. C78_exact: exactly the names all of whose characters stand for themselves."
 },
 "C79": {
  "note": "False: the last attempt is made before the last, longest sleep (C79_false). Proved: found exactly if the daemon answers within 2550 ms. C79_repaired: with one more attempt after the last sleep every daemon that answers within the waiting time is found, and nobody waits longer; C79_repaired_last for any number of attempts."
 },
 "C80": {
  "note": "False if the clock is set back after a display (C80_false). Proved for clocks that never go back. C80_exact: exactly if the clock is behind the time of the last display."
 },
 "C81": {
  "note": "False if the shell's start files take longer than the waiting time: nothing is told to the shell but its output stays hidden (C81_false; from end to end, C81_false_slow). Proved if the start was noticed. C81_exact: exactly if the start was noticed in time."
 },
 "C82": {
  "note": "False if the path contains a blank or a character special to a shell: it is not quoted (C82_false, C82_false_special). Proved for all other paths. C82_exact: exactly the paths without blanks, newlines and special characters."
 },
 "C83": {
  "note": "False: the loop runs to the number of the sysconf name (4), not to the limit, so only descriptor 3 is closed (C83_false). Proved: exactly the descriptors without close-on-exec other than 3 are inherited. C83_exact: closing up to a bound is enough if and only if the bound is at least the limit of open files."
 },
 "C64": {
  "note": "False for a resize acknowledged between the end of the pager and the connection of the session (C64_false, C64_false_gap). Proved: exclusive, slot freed, last size acknowledged before the pager ended. Exactly: C64_connected gives the size the session is connected with (the last one told between the pager's start and its decision to end), C64_exact when that is the last one told. Over time: once a pager has ended, the session is connected with its size in every fair execution (C64_fair)."
 },
 "C43": {
  "note": "False: a session whose shell exited without a client makes every change fail without answer (C43_false, C43_false_forever); concurrent changes can be pushed out of order (C43_false_order); a change between a client's reading and attaching is never pushed to it (C43_false_gap). Proved: map semantics for all histories, every answered change was pushed with the state right after it, and the views of all clients when changes do not overlap. C43_view_exact: in every execution an attached client knows the state its session's thread took last of those waiting at the attach or pushed since, and before any what it had read; C43_known_exact: that is the state at its last reading."
 },
 "C44": {
  "note": "At most one request has a session (C44_at_most_one) and busy answers change nothing (C44_busy) without conditions. That a request serves its own client is false when two clients create a session of one name at the same time (C44_false); proved as long as none starts while another creates (C44_own_client_partial). C44_exact: in every history a session's output goes to the client of the request that was given it last (made it, or found it free)."
 },
 "C45": {
  "note": "Replies and effects of kill and detach are proved for requests that are answered. False in general: a shell that cannot be killed or an ended shell-to-client thread ends the request without a reply after part of it was done (C45_false_kill, C45_false_detach). With the requests taken apart (Verif/Sections: other threads go on while a request works through its names with the table locked) kill is as described (C45_kill_apart); a detach reply tells of each session what was the case at some moment of the request (C45_detach_apart), not of all at one moment (C45_false_moment). Shpool.Sections.steps_sound and steps_complete: the two models reach the same states of the daemon, so all properties of states proved with the requests as single steps hold with them taken apart. Of all requests: C45_kill_exact and C45_detach_exact say exactly which sessions are gone or without a client afterwards and which names the reply lists, names given twice included; C45_kill_unanswered says exactly when there is no reply."
 },
 "C46": {
  "note": "False: a kill request naming a session twice publishes two removed events (C46_false). Proved for histories whose kill requests name no session twice. C46_exact: exactly the histories without such a request."
 },
 "C47": {
  "note": "False in three ways: the end of the request of a killed session removes the session created since under its name (C47_false), racing creations replace each other (C47_false_race), an ended shell-to-client thread lets attach replace a running shell (C47_false_thread). Proved with these excluded (C47_leaves_partial). C47_exact: in every step of every execution exactly four things take a session out of the table."
 },
 "C48": {
  "note": "False: a client attaching to a session just created can deadlock the daemon for good (C48_false, C48_false_all). Proved as long as no attach request starts while another creates a session of that name (C48_free_partial; C48_fair_partial: in every fair execution every attach request under way then ends). Without any condition on the requests: in every fair execution an attach request ends, or one request holds the table's lock for ever, waiting for a session (C48_fair). handle_detach waiting under the table lock for a session's thread is covered by C76. C48_exact: a request that holds the table while waiting for a session can still get it exactly if the session is free or whoever has it has not begun to pass bytes or has finished with the table; otherwise the daemon is stuck for good."
 },
 "C49": {
  "note": "Proved in full for the list as a function of the table under its lock. Times are natural numbers, the error for times before 1970 is taken up in C171. That the request looks at the sessions one after the other is taken up in C153."
 },
 "C50": {
  "note": "The order of the recorded times and when they change are proved without conditions (C50_order, C50_changes; the clock does not go back). That the record matches who is attached is false after an early end of a request (C50_false) and after kill and recreate (C50_false_name); proved with these excluded (C50_attachment_partial). C50_exact: in every history the record shows exactly the last request given the session, unless somebody has been recorded to have left since."
 },
 "C84": {
  "note": "False after a crash: of two clients that find the left-over socket the second fails to remove it and reports an error (C84_false). Proved: no failure without a crash; failure only in that situation; recovery of a client that is alone. C84_cause: whenever a client is turned away, somebody else removed the left-over file between its looking and its removing. C84_repaired: the same two changes would let no client fail and no daemon with the lock give up; C84_repaired_recovers: a daemon started while nobody holds the lock would end up serving whatever was left behind."
 },
 "C85": {
  "note": "False: a second daemon takes over and removes the events socket before it notices the first (C85_false_events), and a second daemonized one removes the pid file (C85_false_pid). Proved: the control socket stays without crashes, and everything stays if no second daemon is started. C85_control_cause, C85_events_cause, C85_pid_cause: every file a serving daemon has lost was taken away by another one (who, and when), in every history with crashes. C85_repaired: with the lock kept as long as the daemon lives, a serving daemon would keep both sockets and its pid file in every history."
 },
 "C86": {
  "note": "False for sockets in the same directory, which share events socket, pid file and log file (C86_false_same_dir). Proved for different directories and for the per-instance runtime directory. C86_exact: nothing is shared if and only if the directories differ."
 },
 "C88": {
  "note": "False for an end by a signal such as SIGTERM, which leaves the terminal raw (C88_false). Proved for every other end. C88_exact: what a signal leaves behind."
 },
 "C89": {
  "note": "False if the terminal is resized between reading the size and the attach (C89_false, C89_false_reattach). Proved when no resize request overtakes the attach; the next resize always repairs it. C89_exact: the size is wrong if and only if the terminal was resized after its size was read and every request about it went out before the attach. Over time: a client that stays attached, whose terminal is not resized again and whose requests do not fail: the session gets the size of the terminal and keeps it, in every fair execution (C89_fair)."
 },
 "C90": {
  "note": "False: a busy session and an unacceptable name are reported with status 0 (C90_false, C90_false_name). Proved with --force and good names; the statuses of all other ends are proved. C90_exact: the exit status is 0 exactly in five ways, two of which are the defects (also after a switch between sessions)."
 },
 "C91": {
  "note": "False: the detached event is published before the session stops counting as attached, created and attached before it counts as attached, and a client lost during the pager causes no event (C91_false, C91_false_created, C91_false_abort). Proved: sessions and names never change without an event; in orderly histories, lists taken when no request is in the middle of being served stay right until the next event. C91_request_partial: the same for the answers of list requests, which look at the sessions one after the other: between two quiet moments without an event, the list is the same at every moment, so it does not matter that the answer is put together over time."
 },
 "C92": {
  "note": "False after the thread that serves the clients of a session failed: all later attaches are told they are attached and get nothing (C92_false, C92_forever). Proved if attaches of one name do not race and the threads do not fail. C92_exact: the client is connected when its request starts streaming if and only if the session's shell-to-client thread has not ended."
 },
 "C93": {
  "note": "False for a ttl of 2^63 seconds or more, which crashes the thread serving the request (C93_false). Proved for all others. C93_exact: exactly when the thread panics; C93_repaired: taking such a ttl for none, it never would."
 },
 "C94": {
  "note": "False: if the thread serving the client is busy for 300 ms when the shell exits, the connection is closed without the status (C94_false). Proved: in undisturbed attachments, for all schedules (C94_told_partial); and the translation from the results of waitpid to what the client is told. Not told it is only if the shell-to-client thread does not get to a message in time, ends by an error, or the terminal is closed 500 ms before the shell exits (C94_cause); each of these is enough (C94_each). Other failures cannot be the reason."
 },
 "C95": {
  "note": "Fully proved; splitting the command line into words is a parameter."
 },
 "C96": {
  "note": "False when the configuration sets a shell: SHELL is still the user's default one (C96_false). Proved otherwise. C96_exact says exactly when SHELL is the shell that runs."
 },
 "C97": {
  "note": "False for a ttl out of range, a thread that cannot be started and a reaper that is gone: the shell was already started (C97_false). Proved otherwise. C97_exact: exactly the causes of a shell without a session."
 },
 "C98": {
  "note": "False if /etc/environment sets TERM (C98_false). Proved otherwise. C98_rule gives the database used in every case, C98_exact exactly when it is the right one."
 },
 "C87": {
  "note": "False: a daemon launched by a client clears its umask for good, so everything made in its sessions can be changed by everybody (C87_false, C87_false_files). Proved for daemons started by hand or by systemd. C87_exact says exactly when the umask is kept."
 },
 "C99": {
  "note": "False in directories open to others, when the client has no agent or nosymlink_ssh_auth_sock is set (C99_false, C99_false_nosymlink). Proved: below a closed directory; after the first attach with an agent; always, if all clients have one; with a umask that takes the permission to read. C99_exact says exactly when another user can read the forwarded variables, for every umask, history and directory above."
 },
 "C100": {
  "note": "False for a daemon launched by a client in a directory open to others, since its umask is empty and there is no check of the peer (C100_false). Who can subscribe is determined exactly (C100_who). Proved for the other ways to start and for closed directories. C100_repaired: exactly which umasks, if daemonize set one instead of clearing it, would keep others from subscribing."
 },
 "C101": {
  "note": "False: a value with a blank makes the shell run the rest of it as a command (C101_false, C101_false_runs). Proved for values without characters that can mean something to the shell. C101_exact, with the shell language read in full but for $, ` and ~ (quotes over lines, comments, operators): the file does what it should exactly if no value has one of the listed characters; C101_repaired: with values in single quotes it always does."
 },
 "C102": {
  "note": "The MessagePack crates are modelled from the MessagePack specification and their documentation."
 },
 "C103": {
  "note": "False: some fields have no default, e.g. the sizes in pixels of a window (C103_false); one session in an unknown state makes the whole list unreadable (C103_false_new_state); unknown requests are not answered (C103_false_new_request). Proved: attach requests, lists, and the simple messages, with unknown, missing and reordered fields; the other messages with unknown and reordered fields. C103_exact: a window size with some of its fields is read if and only if all four are there; C103_repaired: with a default for each field it always is."
 },
 "C104": {
  "note": "False: on_new_session is called before the shell is started and is not taken back if that fails (C104_false); a client that hangs up on the pager gives no closing call (C104_false_pager); a session that ends while detached gives none either (C104_false_kill); killed and created anew, the calls overlap (C104_false_order). Proved: the calls of each request; that they have no effect; what holds when they are made; turns, while requests for a name do not race or fail."
 },
 "C105": {
  "note": "False: LISTEN_PID is not looked at, so with LISTEN_FDS=1 left over from another process the daemon takes the first thing it opened itself for the socket, and closes it if it is not one (C105_false, C105_false_stale). Proved: the socket passed is used; without being asked nothing is touched; only sockets are taken. C105_exact: it goes wrong if and only if LISTEN_FDS asks for one socket and descriptor 3 is a socket that was not passed, or the daemon's own and no socket."
 },
 "C106": {
  "note": "False for entries larger than 4096 bytes (C106_false_large_entry), without a shell (C106_false_no_shell, C106_false) or not UTF-8 (C106_false_not_utf8). Proved for all others; and that nobody gets what is in another entry."
 },
 "C107": {
  "note": "False if the shell does not read what the client had typed (C107_false), and for ever if a shpool detach comes after a late acknowledgement (C107_false_detach). Proved otherwise: the request can end from every state (C107_ends_partial), and it does end in every infinite execution in which threads that can run for ever do run, waits end at their time limits and a thread that finds the mutex free again and again gets it (C107_fair_partial)."
 },
 "C108": {
  "note": "False: a key pressed while the shell exits can make the client be told 0 (C108_false). Proved up to failures of reading and writing, and malformed keybindings; never two statuses. The reasons for a wrong 0 are exactly malformed keybindings and a failing write to the closed terminal (C108_cause, C108_each)."
 },
 "C109": {
  "note": "False: after a failed write of a key (C109_false), or when the heartbeat notices the end before the supervisor (C109_false_race). Proved if the supervisor noticed the exit and nothing failed; sessions of running shells are never removed this way. C109_exact: the session is removed if and only if the request ended without an error and its supervisor had noticed the exit."
 },
 "C110": {
  "note": "Fully proved; the client's bytes are items without structure here (the scan for detach keys is C14-C17)."
 },
 "C111": {
  "note": "Fully proved against an independent reader for JSON (RFC 8259) in Json/Spec.lean; serde_json's printer is modelled from its documentation."
 },
 "C112": {
  "note": "False for the output without --json if a value has a newline (C112_false). Proved for --json, for var get, and for texts without such characters. C112_exact: the text is that of one table only, exactly if there is no variable or a single one without tabs; C112_two: with two or more it is always also that of a single variable."
 },
 "C113": {
  "note": "False if the connection ends in the middle of an event (C113_false): the piece is printed as a line. Proved for all lines but such a last one. Exactly: all lines printed are events iff what the subscriber got is a row of whole events but for perhaps the last newline (C113_exact)."
 },
 "C114": {
  "note": "False: the daemon waits 200 ms for the request, so the user has to press enter within that time (C114_false). Proved exactly for which times it works (C114_quick_partial), and that what is typed afterwards is left for the shell. C114_repaired: if the client dialled again after the answer, the time the user takes would not matter."
 },
 "C115": {
  "note": "False for a signal that arrives while the handlers are being installed (C115_false): it is lost. Proved for all later signals (C115_first_partial; C115_fair_partial: in every fair execution the daemon ends), for the second one, and that nothing else ends the daemon. C115_exact: the first signal ends the daemon if and only if it arrives before anything is registered for it or after everything is."
 },
 "C116": {
  "note": "False: an attach request takes a second read guard of the configuration while it holds one (build_shell_env; start of the output thread); if the watcher asks for the write guard in between, both wait for each other for ever (C116_false, C116_false_new), and so does everything that looks at the configuration later (C116_forever, C116_forever_attach). Proved exactly for the other states (C116_exact_partial). A daemon that was started automatically never reloads (C120). In every fair execution in which that state is not entered everything asked for is done and every change of the files is dealt with (C116_fair_partial, C116_fair_reload_partial)."
 },
 "C117": {
  "note": "False: the configuration is read again and again during a request (C117_false, C117_false_spool). Proved for what is read under one guard (environment, scrollback), and that versions never go back. Exactly: what a thread reads is of different versions iff a reload falls between two of its reads (C117_exact); C117_read says which versions it has been given."
 },
 "C118": {
  "note": "False: the paths are resolved once, so making a link lead elsewhere is not noticed (C118_false, C118_false_directory), nor is creating the target of a dangling link (C118_false_dangling). Proved for edits, replacement, removal and creation of the file itself, at its real place. C118_exact: a change that makes a difference to what is read is noticed if and only if it is made to the real file."
 },
 "C119": {
  "note": "False: if the system-wide and the user's configuration are the same file by way of links, watching the second is an error and every shpool command fails (C119_false). Proved that this is the only case (C119_exact_partial)."
 },
 "C120": {
  "note": "False: the thread that watches the configuration is started before the daemon forks into the background, so a daemon that was started automatically has none and never notices an edit (C120_false, C120_frozen). Proved for daemons that do not fork (C120_follows_partial, C120_quiet_partial). Exactly: a serving daemon can come to use a good file by its own steps iff it was not started automatically or already uses it (C120_exact)."
 },
 "C121": {
  "note": "False: if the fork happens while the watcher reloads, the child has a lock that nobody lets go of (C121_false, C121_stuck). Proved that this is the only case (C121_exact_partial)."
 },
 "C122": {
  "note": "False: every command loads the configuration first and fails if it cannot (C122_false, C122_nothing_works). Proved for a configuration that can be read, e.g. one named on the command line. C122_exact: a command gets to a running daemon if and only if the configuration it loads can be read."
 },
 "C124": {
  "note": "False for a relative path: the daemon changes its directory to the root before it binds (C124_false), so that the command fails (C124_false_fails). Proved exactly when it holds (C124_exact_partial)."
 },
 "C125": {
  "note": "False: an error of a subcommand only goes to the log, which clients do not have by default (C125_false, C125_false_ttl, C125_false_refused). Proved exactly which failures are silent (C125_exact_partial)."
 },
 "C126": {
  "note": "False: a detach while a program uses the alternate screen leaves the terminal in it (C126_false). Proved that the client adds nothing of its own, so that the terminal has exactly the modes that the session's output leaves (C126_exact_partial, C126_undone_partial)."
 },
 "C127": {
  "note": "False: the interval is the one of the start of the daemon (C127_false, C127_false_removed); a pager that fails uses up the interval (C127_false_used_up); an edit between the two looks at the mode makes the attach fail (C127_false_race). Proved as long as the interval is not edited (C127_follows_partial), and exactly when the attach fails (C127_fails_exact_partial)."
 },
 "C128": {
  "note": "False: the daemon only notices when there is something to write, so without events any number of dead connections is held (C128_false, C128_false_unbounded). Proved that one iteration of the loop with something to write forgets it (C128_forgotten_partial). C128_exact: an iteration forgets it exactly if something was waiting to be written to it or an event is taken."
 },
 "C129": {
  "note": "False: the timeout limits each read, not the request; a client that sends a byte now and then keeps its thread as long as it likes (C129_false, C129_false_any). Proved: at most the timeout per byte (C129_bound_partial), noticed one timeout after the client's last action (C129_silent), exactly which requests are read (C129_read_exact)."
 },
 "C130": {
  "note": "False: the list of sessions is written with the session table locked (C130_false). Proved exactly who is not held up (C130_exact_partial), that nobody is if the answers fit into the sockets (C130_fits_partial), and a bound (C130_bound_partial)."
 },
 "C131": {
  "note": "False: if the system refuses a thread, the daemon panics (C131_false, C131_false_any). Proved that this is the only case (C131_exact_partial, C131_up_partial)."
 },
 "C134": {
  "note": "False for descriptors above 2 that are not marked close-on-exec: they are inherited by the launched command and never closed (C134_false, exactly those: C134_rest_partial). Session, group, terminal, directory and the standard descriptors are proved. C134_repaired: if the client marked its descriptors above 2 close-on-exec, the daemon would have nothing of what launched it."
 },
 "C136": {
  "note": "False if the terminal had just one row and one column more than that of the client that comes back, and this one is enlarged to that size within 50 ms (C136_false). Proved that this is the only case (C136_exact_partial), when and how often the programs are told (C136_jiggle_partial, C136_soon_partial)."
 },
 "C137": {
  "note": "False: the ttl reaper removes a session whose shell it cannot kill (C137_false), and shells are lost when attach requests race, when a shell-to-client thread ends before its shell, and when a request removes a session by its name (C137_false_race, _thread, _name); lost shells stay lost (C137_for_ever). Proved for all other histories, and for kill always. C137_exact: a running shell is unreachable if and only if one of these steps has happened to it."
 },
 "C132": {
  "note": "C132_fair: in every fair execution what the daemon has sent to a client is shown, unless the client's output thread has ended or one of its threads has failed. Needs that the frames fit the reader's buffer (they do: C01, C24)."
 },
 "C133": {
  "note": "C133_fair: in every execution in which the daemon's reader gets turns, all that the client has sent by some time is written to the shell, except a rest that is a proper beginning of a key binding."
 },
 "C24": {
  "note": "Also over time: in every fair execution the client ends once stdin or the connection has ended or the outcome is decided, with the status received (C24_fair_one, C24_fair, C24_fair_status, C24_fair_received)."
 },
 "C52": {
  "note": "Also over time: in every fair execution every published event is broadcast (C52_fair)."
 },
 "C139": {
  "note": "False: if the thread that waits for the pager tells of its exit before the pager's last output has been read, that output (which gives back the screen) is not shown (C139_false); input found ready together with the last output goes to the pager that has exited (C139_false_input). Proved: what is not shown is exactly what was not read (C139_not_shown_partial); nothing if the end is noticed by the end of the terminal (C139_shown_partial); what is typed when the client is not read any more is left (C139_left_partial). C139_repaired: if the display ended only at the end of the pager's terminal, everything printed would have been shown."
 },
 "C140": {
  "note": "False: after the last wait (640 ms) there is no look whether the pager has exited, so SIGKILL can go to a process that was given its number (C140_false). Proved: the pager has ended (C140_gone), the order and time of the signals (C140_escalates), no signal to a pager known to have exited (C140_spared), and all signals hit the pager as long as its number is not reused (C140_own_partial). C140_exact says exactly when another process is sent SIGTERM or SIGKILL."
 },
 "C143": {
  "note": "False: a request that fails after the session was chosen (the link to the ssh agent's socket, the file with the session's variables, the pager) leaves the connection in the session, open, and its client waits (C143_false), even after the shell has exited, until somebody attaches to the session or kills it or its time is up (C143_false_for_ever). Proved: a client that is refused as busy is always let go (C143_busy); as long as no request is cut short every open connection is attended by a request that is not over (C143_attended_partial), and if attach requests for one name do not race either, the connection of a request that is over is closed (C143_closed_partial). A client that is told to leave by a thread that does its work is let go in that very step (C143_at_once); when the thread does not take the message, the request closes the connection itself (C143_unsent)."
 },
 "C144": {
  "note": "In every history, also with requests cut short and racing: who keeps an open connection (C144_kept), a session that is gone keeps none (C144_gone), at most two per session (C144_bound)."
 },
 "C145": {
  "note": "False (C145_false, C145_false_for_ever): an attach that has just made a session locks the table and then waits for the session; if somebody else has attached to it in between and leaves, that one waits for the table. That is the only place: all programs take locks in one order but for it (C145_circle_partial, C145_rest_partial). Fully true when no attach that makes a session finds one of another attach afterwards, with any number of other requests about any sessions (C145_apart, C145_rest). Missing from the partial ones: that place. With a try for the session at that place instead of waiting for it, the claim would hold in full (C145_repaired)."
 },
 "C146": {
  "note": "Strong fairness per thread (a thread that can go on again and again does so at some time), induction over the order of the locks; work between locks is assumed to end, idling is not. The condition (Apart) is stated in the property; without it C145_false_for_ever applies."
 },
 "C147": {
  "note": "False for each shell. bash with PROMPT_COMMAND: hooks are told status 0 (C147_false_bash_status), elements of PROMPT_COMMAND after the first are run once more after the prefix was added and can wipe it out (C147_false_bash_list), a prompt set by a command is gone at the next prompt (C147_false_bash_set); zsh: likewise with or without hooks (C147_false_zsh_set), and a prompt set by the function precmd is undone (C147_false_zsh_precmd); fish: the user's prompt is told status 0 (C147_false_fish_status). Proved: exact for bash without hooks, bash with one hook that does not look at the status, zsh with any hooks in precmd_functions, fish with a prompt that does not look at the status, as long as commands leave the prompt alone; in zsh the prefix is there whatever is set (C147_zsh_prefix_partial). The programs whose meaning is given are those in the text (C147_script_*). The meaning of the few forms of shell commands used is trusted. C147_bash_exact: exactly which prompts bash shows with any number of hooks: all are run, told status 0 first, the prefix is put there, and all but the first are run again."
 },
 "C148": {
  "note": "False: the file is made with File::create, which empties it, and is not opened for appending. A client given the log file of a running daemon, or a second daemon launched at the same time with the same daemonized-shpool.log (before it finds that the socket is taken), empties it (C148_false, C148_emptied_partial: the first one's next message then comes after a hole of zero bytes), and two writers write over each other (C148_false_overwritten). Proved: while no other process opens the file it holds exactly the messages of its owner. Opened for appending and not emptied, the file would keep all messages of all its writers, whole and in order (C148_repaired)."
 },
 "C150": {
  "note": "Not proved as stated, and false (C150_false): the session name is typed as part of the prompt prefix, and SHPOOL_PROMPT_SETUP_SENTINEL is an accepted name; in such a session the hiding ends at the echo of the prefix and the user sees the rest of the script. Proved (C150_hidden_partial, C150_default_partial): if the marker is in none of prefix, name, start command and path of the binary, and these have no control characters but line ends, exactly what comes after the marker line is shown, provided the shell's own output meanwhile does not have the marker in it or end in a character of the marker. C150_startup_partial: the echo of the first command is not taken for its output. C150_says_partial needs a path without characters special to a shell (see C82). The echo (ECHO, ECHOCTL, ONLCR) is that of the kernel; line editors that redraw the line are not modelled. C150_typed_exact: the marker is in what is typed if and only if the user put it there (prefix with the name in it, start command, path of the binary)."
 },
 "C151": {
  "note": "Not proved as stated, and false (C151_false): the client closes its attachment and then asks for the session to be detached by its name; whoever attaches in between is disconnected by that, although nobody used --force. Proved (C151_alone_partial): if no other request for the name is under way from the moment the background request is taken up, nobody loses an attachment; (C151_left, without conditions): the detach request leaves list, shells, owners and sessions of other names as they are and the named session without client; (C151_given_back_partial): under fairness the daemon's thread ends and gives the session back, if requests creating a session do not race. Exactly: the request takes another's attachment away iff that is served by the session that has the name now (C151_exact)."
 },
 "C152": {
  "note": "Not proved as stated, and false (C152_false): the session is detached once only; whoever attaches before the next try keeps the forced client out, and after its tries it reports a terminal that could not be detached, although that one has long gone. Proved: a client that gives up has had 22 requests refused (C152_tries); a request for a session nobody has is not refused (C152_free); if nobody else asks for the name since the first refusal, every later refusal is because the same request still has the same session (C152_same_partial). Exactly: a request is refused iff some request has the session of that name then, and that is one only (C152_exact). A forced client makes at most 22 requests and does not try for ever (C152_bound)."
 },
 "C153": {
  "note": "Not proved as stated, and false (C153_false): the table is locked during the request but the sessions are not; if two clients are leaving, the list can tell of the one that left first that it is attached and of the other that it is not (C153_false_ever: this was never the case). Proved: everything but the status is right at every moment of the request (C153_fixed), each line is right at some moment (C153_each), a line that says attached was right at the beginning and one that says disconnected is right at the end (C153_between); the whole is of one moment exactly if any two lines are (C153_exact_partial), in particular if at most one client leaves meanwhile (C153_one_leaves_partial)."
 },
 "C154": {
  "note": "Not proved as stated, and false (C154_false, C154_false_size): the thread that handles SIGWINCH is started before the attach request and names a session in its request; the daemon does not ask who sends it. A client that is refused as busy or waits to take over (--force), one that has just been detached (C154_false_former) and one that follows its template to a session somebody has (C154_false_switch) resize the session of the attached client, which keeps the wrong size until its own terminal is resized. Proved: exactly who can (C154_who_partial: a client aimed at this session whose terminal was resized since it was started), so nobody else if there is no other such client (C154_alone_partial); and if all resize requests come from the client that has the session and none fails, every session has the size of its client's terminal whenever no signal is being handled (C154_follows_partial). Exactly: resizing the terminal of a client can resize a session somebody has iff that client runs and was started for it or is on its way to it (C154_exact)."
 },
 "C155": {
  "note": "False: the size listener has the bare number of the descriptor. The number is closed by the destructor of each of the two handles, that of the thread that waits for the pager to exit (even while the pager is still shown, C155_false_shown) and that of display, which is dropped before the slot is freed; a size sent at that moment (or, if the request gave up waiting, at any later time) is set on whatever has been given the number since, e.g. the terminal of another session (C155_false, C155_false_acknowledged, C155_false_later). Proved: it holds until the terminal is closed (C155_partial), in particular as long as the pager runs and is shown (C155_runs_partial); nothing else is touched if nothing is opened after that (C155_reuse_partial); with a process number instead of a clone and the other order of declaration it would hold if no request gives up waiting (C155_order; C155_order_timeout shows that this is needed). That the destructor of a clone closes the descriptor is said in a comment of server.rs (1028-1037); the destructor is in the crate shpool_pty. Exactly: C155_exact gives the histories in which a size is set on something else: that was opened under the number after the terminal was closed, and still had it."
 },
 "C156": {
  "note": "False: if a request gives up waiting for the acknowledgement the listener waits for ever to deliver it, and no size is taken any more while this pager is shown (C156_false, C156_stuck_forever). Proved without such a request, while the pager runs (C156_partial); an acknowledgement is always for the request that gets it (C156_own). C156_exact: a size can be set if and only if no request has ever given up waiting for its acknowledgement."
 },
 "C157": {
  "note": "False: the thread that waits for the pager has a clone of the handle, whose destructor closes the descriptor (server.rs 1028-1037 avoids the same for shells) while display goes on with the bare number: it can read another file and send it to the client (C157_false), write what is typed to another file (C157_false_write), and the second destructor closes whatever has got the number in between, in either order (C157_false_close, C157_false_close_monitor); there always is a second closing (C157_twice). Proved: it holds until the first closing (C157_partial) and afterwards if nothing is opened (C157_reuse_partial); at most one read and one write go wrong (C157_bound); with the process number instead of a clone it would hold (C157_repaired). Exactly: C157_exact gives the histories in which something else is read, written to or closed: that was opened under the number after the terminal was closed, and still had it."
 },
 "C158": {
  "note": "False: when a session is dropped its terminal is closed, but its thread has the bare number and looks at its channels only once per turn; a new session's terminal that gets the number can be read (its output is lost) or resized (C158_false, C158_false_size), any number of times as long as some request has a reference to the control channels (C158_false_many). Proved: it holds until the session is dropped (C158_partial) and afterwards if nothing is opened (C158_reuse_partial); without such a request at most one read and one resize go wrong (C158_bound) and the thread ends (C158_ends). Exactly: C158_exact gives the histories in which something else is read or resized: that was opened under the number after the terminal was closed, and still had it."
 },
 "C159": {
  "note": "False: neither loop does anything about a failed accept but write to the log, and accept(2) fails at once if there is no free number, even if nobody waits (C159_false; the events sink with a waiting subscriber: C159_false_events); both go round, and write to the log, without end (C159_for_ever). Proved exactly when they come to rest (C159_exact_partial) with a bound (C159_rests_partial), that all the work beyond it is failed accepts (C159_work_partial), that nobody is lost and the order is kept (C159_none_lost), and that all who wait are accepted once numbers are free (C159_fair)."
 },
 "C160": {
  "note": "False: the number of each name ever registered is kept for good (C160_false, C160_names_for_ever), and deadlines of sessions that are gone stay until they have passed, any number of them (C160_false_heap). Proved exactly what is kept of names (C160_names_exact); that a reaper with nothing to do keeps only deadlines that have not passed, each registration once (C160_heap_partial); that in every fair execution every deadline is forgotten (C160_fair_partial); and that at most ten registrations are under way (C160_mail, C160_mail_full)."
 },
 "C161": {
  "note": "False: each attach sets the terminal to raw mode and gives its settings back at its end, so between two sessions they are the former ones: return becomes newline (C161_false), the interrupt key ends the client (C161_false_interrupt), backspace edits (C161_false_erase). Proved for plain characters, whatever the settings (C161_plain_partial; which these usually are: C161_plain), and always if the client is not on a terminal (C161_pipe); the order is kept (C161_order), and after the hint at most one more piece goes to the old session (C161_one_more). Exactly, with the usual settings: it holds iff none of ^C, ^\\, ^Z, return, ^D, backspace, ^U is typed between two sessions (C161_exact)."
 },
 "C162": {
  "note": "False: a heartbeat that finds the client gone ends the request, and what was not read by then is thrown away (C162_false). Proved if no heartbeat falls between (C162_partial); what is thrown away is always an end of what was sent (C162_end_only), and never the piece the reader was waiting for (C162_next). C162_repaired: a daemon whose reader reads to the end of the connection loses nothing. Exactly: something is missing iff the reader, having written a piece, found the request ending while there was more to read (C162_exact)."
 },
 "C163": {
  "note": "False: poll returns EINTR when its thread takes the signal of a resize, and the client takes that for an error of its input and exits with status 1. Linux gives the signal to another thread than the main one when the main one is still in the handler for the last resize, so two resizes in quick succession can end the attach (C163_false, C163_false_exit); with what POSIX promises, one can (C163_false_posix). Proved if no resize comes while the main thread is in the handler (C163_partial); nothing else than such an interruption is the cause (C163_cause); the status is then 1 (C163_status). No resize is forgotten whichever thread is interrupted (C163_told, C163_told_fair). C163_repaired: a client that calls poll again stays attached always."
 },
 "C164": {
  "note": "False: nothing asks where a client runs. `shpool attach -f` with the name of the session it is run in makes the session its own client, and two detached sessions can come to show each other without force (C164_false_unforced). C164_exact: an attach does it exactly if following the clients from where it is made comes to the session. C164_for_ever: once something is printed in such a circle, it is relayed without end and never comes out. C164_partial: holds if no attach is forced and each is made where a user sits outside. Comparing with SHPOOL_SESSION_NAME would not be enough (C164_own_not_enough); a daemon that follows the clients would be (C164_repaired, C164_repaired_refuses_no_more). Where following the clients does come to a terminal, what is on its way stays in order until it is shown (C164_in_order), and can be shown by relaying alone (C164_comes_out)."
 },
 "C165": {
  "note": "False: what is ignored stays ignored over exec, and the daemon resets only SIGTERM, SIGINT, SIGQUIT (it handles them) and SIGPIPE (Rust's library does). After `nohup shpool daemon` sessions ignore SIGHUP, so that `shpool kill` has to use SIGKILL (C165_kill); with SIGCHLD ignored clients are told exit status 1 for every session (C165_status). C165_exact: exactly these signals. C165_partial: holds if whoever started the daemon ignores at most those four; no signal is ever blocked (C165_mask). C165_repaired: would hold if the child set every signal to its default."
 },
 "C166": {
  "note": "False: the picture is set up for the size in the request that creates the session, while the terminal gets the size the client has after the message of the day was shown in a pager. If it was resized meanwhile the two differ (C166_false) and stay different until the next resize or attach (C166_false_lasts). C166_exact: exactly then. C166_partial, C166_later: holds without such a resize, and from the next request on. C166_repaired: would hold if the picture were set up for the size of the first client handed over."
 },
 "C167": {
  "note": "False: the command that prints the marker is typed after the start command, so a start command that reads the terminal or throws away what was typed ahead swallows it (C167_false, C167_false_others), likewise the start files, and a daemon that gives up; then nothing is ever shown (C167_for_ever). While a start command runs that does not come back nothing is shown either (C167_false_runs). C167_cause: these are the only causes. C167_partial, C167_fair_partial: holds, and comes about, if start files and start command leave the input alone. C167_repaired: typing the marker's command first would make it hold for all start commands."
 },
 "C168": {
  "note": "False unless the crate shpool_pty opens master sides close-on-exec (not known from the repository): the loop that closes descriptors in the child stops at 4, so the shell of a later session has the master sides of the terminals of the sessions there were (C168_exact), and killing one of those does not hang its terminal up (C168_false); a program that ignores hang-ups keeps all earlier sessions' terminals from being hung up, also after the daemon has ended (C168_false_daemon, C168_false_for_ever). C168_partial: holds with close-on-exec. C168_fair_partial: if no process ignores hang-ups or leaves its terminal, everything ends after the daemon has ended, whatever was inherited. C168_repaired: a loop up to the real limit would do. C168_not_before: no terminal is hung up while its session is there."
 },
 "C169": {
  "note": "False: the files are made after the shell has been started and waited for, so its start files and the start command find nothing or what a former session of that name left (C169_false, C169_false_start, C169_false_former); a client without an agent leaves the link to the agent of an earlier one (C169_false_agent). What a client forwarded stays in the directory when the session is gone (C169_false_left). C169_partial: right for a client that has been given the session, but for the missing agent. C169_agent: whose agent it is otherwise. C169_repaired: would hold if the files were made first and old links removed. Exactly, for a client that has been given the session: right iff it has an agent or no client of that name ever had one (C169_exact)."
 },
 "C170": {
  "note": "False: while its user reads the message of the day in the pager a client is shown as attached, and every detach request changes nothing and is answered that nobody is attached, for ever (C170_false, C170_false_for_ever, C170_lost); a forced attach gives up (C170_false_force). Proved: the list shows what some request has (C170_shown); a detach request ends a request that streams, in every fair execution in which requests creating a session do not race (C170_partial); one for a session not shown as attached changes nothing (C170_disconnected); as stated if detach requests also reached such requests (C170_repaired). That the streaming of a client taken from the session's thread ends is one step here; see C107 for when it does not."
 },
 "C171": {
  "note": "Not proved as stated, and false (C171_false): a session that was started, last connected or last disconnected while the clock showed a time before 1970 makes every list request fail (C171_false_all: other sessions are not listed either); and a clock that is set back makes the list tell of an attached session that its last disconnection came after its last connection (C171_false_order). Proved: the list is refused exactly in that case (C171_exact), as long as such a session is there (C171_stays; the time it was started does not change, C171_started); otherwise it tells of all sessions (C171_tells_partial); the order is right for all histories exactly if the clock never goes back by a millisecond (C171_order_exact); killing those sessions helps (C171_kill)."
 },
 "C172": {
  "note": "False (C172_false): NotAttached, which the protocol documents as the answer for a session without a terminal attached, is never sent; a resize or detach of such a session is answered Ok. C172_false_replaced: a resize can be answered Ok though the session now having the name kept its size. Proved for all interleavings: NotFound, Ok to a resize and Ok to a detach are only said if true at some moment of the request (C172_true_partial); if the name stands for the same session throughout and no pager is shown, the size asked for is in force when Ok is said (C172_same_partial); only sessions that had the name are touched (C172_others). Over time: in every strongly fair execution every session message is answered or its request ends (C172_answered). It would hold if the request looked whether the session has a client when it looks the name up (C172_repaired)."
 },
 "C173": {
  "note": "False (C173_false, C173_false_for_ever): the thread looks at the shutdown pipe only when it has found the channel empty, so the owner waits for ever while others publish fast enough; and events published before the bus is let go may not be broadcast, as the shutdown pipe is looked at first (C173_false_delivery). Proved: the owner is through exactly if the thread does not pass on events for ever (C173_exact), so always if nobody publishes any more, as when the start of the daemon fails (C173_ends_partial); then nobody is connected, nobody can connect and the socket file is gone unless it could not be removed (C173_closed); publishers never wait and the loss is logged once (C173_publish); what a subscriber misses is exactly what had not been taken from the channel (C173_missing); a failed write to the shutdown pipe leaves the owner waiting as long as anybody has the bus (C173_unheard). Not lost is what is published by the time the thread passes on events (C173_passed_on). Looking at the shutdown pipe before each event is taken would let the owner through always (C173_repaired)."
 }
}
