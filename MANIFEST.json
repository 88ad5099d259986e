{
 "claims": [
  {
   "property": "C01",
   "status": "proved",
   "theorems": [
    "Shpool.Chunk.C01_frame_round_trip",
    "Shpool.Chunk.C01_wire_layout"
   ],
   "note": "Proved as stated. C01_frame_round_trip: Any legal frame whose payload fits the reader's buffer is written without failure and read back identically, leaving the following bytes untouched. C01_wire_layout: The wire layout itself, spelled out: kind byte, then (except for exit status) the little endian length, then the payload. This pins the format for independent clients."
  },
  {
   "property": "C02",
   "status": "proved",
   "theorems": [
    "Shpool.Chunk.C02_stream_round_trip",
    "Shpool.Chunk.C02_segmentation_irrelevant"
   ],
   "note": "Proved as stated. C02_stream_round_trip: A sequence of legal frames written on one connection is decoded as exactly that sequence, for every way the byte stream (followed by arbitrary further bytes) is cut into segments. C02_segmentation_irrelevant: for arbitrary (also illegal) streams: the outcome of reading a frame is the same for any two segmentations of the same bytes: same frame and same remaining bytes, or same error."
  },
  {
   "property": "C03",
   "status": "proved",
   "theorems": [
    "Shpool.Chunk.C03_reader_sound",
    "Shpool.Chunk.C03_unknown_kind_rejected",
    "Shpool.Chunk.C03_oversize_rejected",
    "Shpool.Chunk.C03_truncated_rejected"
   ],
   "note": "Proved as stated. C03_reader_sound: Reading from arbitrary bytes: whatever is returned is a legal frame that fits the buffer, and exactly the bytes of that frame were consumed. C03_unknown_kind_rejected: rejections: a kind byte above 3 is refused. C03_oversize_rejected: rejections: a declared length above the buffer is refused before any payload byte is read. C03_truncated_rejected: rejections: a truncated frame (any proper prefix of a legal frame) is refused with an EOF error, never decoded as something else."
  },
  {
   "property": "C04",
   "status": "proved",
   "theorems": [
    "Shpool.Chunk.C04_prefix_free",
    "Shpool.Chunk.C04_stream_injective",
    "Shpool.Chunk.C04_truncated_length"
   ],
   "note": "Proved as stated. C04_prefix_free: No frame's encoding is a prefix of another frame's encoding. C04_stream_injective: Different frame sequences have different byte streams. C04_truncated_length: The length cast makes frames of `2^32` bytes or more ambiguous, which is why `Legal` excludes them: the encoding of such a data frame equals kind byte + truncated length + payload."
  },
  {
   "property": "C05",
   "status": "partial",
   "theorems": [
    "Shpool.S2C.C05_exact",
    "Shpool.S2C.C05_accepted_partial",
    "Shpool.S2C.C05_false",
    "Shpool.S2C.C05_false_switch_hint",
    "Shpool.Wire.C05_small_tables_partial",
    "Shpool.Wire.C05_false_large_tables"
   ],
   "note": "False for a message of the day or a switch hint of more than 16384 bytes (C05_false, C05_false_switch_hint). Proved for all other frames and for such texts up to that size. For the table of variables: the frame fits if names and values are short enough (C05_small_tables_partial) and never fits once they are 16384 bytes (C05_false_large_tables). C05_exact: the client takes exactly the frames of at most 16384 bytes; the longer ones carry only a message of the day or the switch hint."
  },
  {
   "property": "C06",
   "status": "proved",
   "theorems": [
    "Shpool.Version.C06_version_order",
    "Shpool.Version.C06_accepts_iff",
    "Shpool.Version.C06_antisymmetric",
    "Shpool.Version.C06_transitive",
    "Shpool.Version.C06_client_new",
    "Shpool.Version.C06_warning",
    "Shpool.Version.C06_error"
   ],
   "note": "Proved as stated. C06_version_order: On well formed versions the answer compares minor numbers when both majors are 0, else major numbers; the patch number is irrelevant. C06_accepts_iff: The comparison succeeds exactly when both texts are well formed versions. C06_antisymmetric: Swapping client and daemon reverses the answer. C06_transitive: \"Not newer than\" is transitive. C06_client_new: A daemon whose version equals the client's is never reported as mismatching; one whose header cannot be decoded is still usable but reported. C06_warning: Which warning the user gets: \"client is older\" exactly if the daemon's deciding number is larger, \"client is newer\" exactly if it is smaller, none if they agree. C06_error: A daemon whose version cannot be compared with the client's is refused, with an error that names the side at fault: the client's own if that is not a version, else the daemon's."
  },
  {
   "property": "C07",
   "status": "proved",
   "theorems": [
    "Shpool.Trie.C07_lookup",
    "Shpool.Trie.C07_cursor",
    "Shpool.Trie.C07_noMatch_sticky",
    "Shpool.Trie.C07_contains",
    "Shpool.Trie.C07_indices_in_bounds"
   ],
   "note": "Proved as stated. C07_lookup: After any history of insertions, feeding a non-empty sequence and asking for the value gives the value most recently inserted under exactly that sequence. C07_cursor: The cursor after a non-empty sequence: a match that is flagged partial exactly when the sequence was never inserted itself, if some inserted key starts with it; otherwise no-match. C07_noMatch_sticky: No-match is final. C07_contains: `contains` answers exactly whether the sequence was inserted (including the empty one). C07_indices_in_bounds: No access is ever out of bounds: every index in a cursor reached from the start is a valid node index, so the Rust indexing never panics."
  },
  {
   "property": "C08",
   "status": "partial",
   "theorems": [
    "Shpool.Keys.C08_understood",
    "Shpool.Keys.C08_exact",
    "Shpool.Keys.C08_false",
    "Shpool.Keys.C08_understood_partial",
    "Shpool.Keys.C08_accepted_partial"
   ],
   "note": "False for Ctrl-1 and Ctrl-9, which the grammar allows but the code table lacks (C08_false). Proved for every other chord, any white space, any number of bindings. C08_exact: exactly the specs without Ctrl-1 and Ctrl-9."
  },
  {
   "property": "C09",
   "status": "partial",
   "theorems": [
    "Shpool.Keys.C09_false",
    "Shpool.Keys.C09_false_not_written",
    "Shpool.Keys.C09_accepts_exactly_partial"
   ],
   "note": "False: a dangling dash, a cut-off key word and an empty spec are accepted (C09_false). Proved: the exact set of accepted configurations."
  },
  {
   "property": "C10",
   "status": "partial",
   "theorems": [
    "Shpool.Keys.C10_exact",
    "Shpool.Keys.C10_plain",
    "Shpool.Keys.C10_false",
    "Shpool.Keys.C10_control_partial",
    "Shpool.Keys.C10_digits"
   ],
   "note": "False for Ctrl-x/Ctrl-y, whose codes are swapped in the table (C10_false). Proved for all other keys. C10_exact: exactly the letters other than x and y."
  },
  {
   "property": "C11",
   "status": "proved",
   "theorems": [
    "Shpool.Keys.C11_action_only_on_its_keys",
    "Shpool.Keys.C11_partial_is_proper_prefix"
   ],
   "note": "Proved as stated. C11_action_only_on_its_keys: Whenever the engine reports an action after the input `h ++ [x]`, the input ends with the complete byte sequence of a configured binding with exactly that action. C11_partial_is_proper_prefix: As long as the engine answers \"partial\", the bytes of that run are the beginning, but not all, of the byte sequence of a configured binding."
  },
  {
   "property": "C12",
   "status": "partial",
   "theorems": [
    "Shpool.Keys.C12_engine",
    "Shpool.Keys.C12_exact",
    "Shpool.Keys.C12_false",
    "Shpool.Keys.C12_false_prefix",
    "Shpool.Keys.C12_false_alias",
    "Shpool.Keys.C12_fires_partial",
    "Shpool.Keys.C12_idle_partial"
   ],
   "note": "False in general: the failing byte is not retried, a prefix binding shadows a longer one, and aliases of one byte disable a binding. Proved from an idle engine without aliasing or shadowing. C12_engine gives every answer to every input by a specification that knows only the list of bindings (the chord written last for a byte, the action written last for a sequence); C12_exact says exactly which bytes fire an action."
  },
  {
   "property": "C13",
   "status": "partial",
   "theorems": [
    "Shpool.Input.C13_exact",
    "Shpool.Input.C13_false",
    "Shpool.Input.C13_split_independent_partial"
   ],
   "note": "False when a binding starts at the second byte of a read (C13_false). Proved otherwise. C13_exact: cutting the input into reads makes no difference exactly when no read begins with a byte to pass on directly followed by a binding that fires."
  },
  {
   "property": "C14",
   "status": "proved",
   "theorems": [
    "Shpool.Input.C14_transparent",
    "Shpool.Input.C14_absent"
   ],
   "note": "Proved as stated. C14_transparent: If no binding fires, then for every input and every split into reads the thread keeps running, and what it has written to the shell, followed by what it still withholds, is exactly what the client has sent. What is withheld is a beginning, but not all, of some configured binding. C14_absent: in terms of the bytes alone. Input in which the byte sequence of no configured binding occurs reaches the shell unchanged, but for a last piece that is the beginning of a binding."
  },
  {
   "property": "C15",
   "status": "partial",
   "theorems": [
    "Shpool.Input.C15_exact",
    "Shpool.Input.C15_exact_loss",
    "Shpool.Input.C15_false",
    "Shpool.Input.C15_noop_strips_itself_partial",
    "Shpool.Input.C15_typing_partial"
   ],
   "note": "False when a binding starts at the second byte of a read (C15_false). Proved otherwise, and unconditionally for one byte per read. C15_exact: exactly what the shell gets — the ideal output, except that a read which begins with a byte to pass on directly followed by a binding that fires loses that byte. C15_exact_loss: as many bytes are missing as there are such reads."
  },
  {
   "property": "C16",
   "status": "partial",
   "theorems": [
    "Shpool.Input.C16_exact",
    "Shpool.Input.C16_false",
    "Shpool.Input.C16_before_detach_partial",
    "Shpool.Input.C16_all_delivered_partial"
   ],
   "note": "False when the input shares a read with the detach sequence (C16_false). Proved when the read begins with or inside the detach sequence; in general only bytes of that read are lost. C16_exact: exactly what was delivered when the detach binding fires."
  },
  {
   "property": "C17",
   "status": "proved",
   "theorems": [
    "Shpool.Input.C17_no_panic"
   ],
   "note": "Proved as stated. C17_no_panic: For every configuration, every buffer size and every series of reads the thread neither panics nor writes anything but bytes it has received, in the order received."
  },
  {
   "property": "C18",
   "status": "partial",
   "theorems": [
    "Shpool.S2C.C18_exact",
    "Shpool.S2C.C18_fair_partial",
    "Shpool.S2C.C18_nothing_skipped",
    "Shpool.S2C.C18_relay_partial",
    "Shpool.S2C.C18_reattach_partial",
    "Shpool.S2C.C18_first_client_partial",
    "Shpool.S2C.C18_false"
   ],
   "note": "False at the end of a session: output the shell wrote just before exiting is dropped if the hangup is noticed first (C18_false). Proved: what is read is relayed to a working client in order, without loss or duplication, after the snapshot and the message of the day; in every fair execution unread output reaches a client that stays attached (C18_fair_partial). C18_exact: the client received everything but what was still unread when the end was noticed."
  },
  {
   "property": "C19",
   "status": "proved",
   "theorems": [
    "Shpool.S2C.C19_fair",
    "Shpool.S2C.C19_history",
    "Shpool.S2C.C19_independent_of_clients",
    "Shpool.S2C.C19_complete",
    "Shpool.S2C.C19_reads_without_client"
   ],
   "note": "Proved as stated. C19_fair: over time: in every fair execution in which the thread goes on, whatever clients come and go, all that the shell has written at some moment is later read, and the history then is its visible part. C19_history: The text fed to the restore engine is exactly the visible part (C20) of what was read from the pty: a function of the bytes read alone. C19_independent_of_clients: Two sessions whose ptys delivered the same bytes have the same history, whatever their clients did and however the bytes were cut into reads. C19_complete: Without prompt injection nothing that was read is missing from the history. C19_reads_without_client: Reading goes on without any client: at the poll, pending output is read up to the size of the buffer whether or not a client is attached, as long as the shell's side of the pty is open."
  },
  {
   "property": "C20",
   "status": "partial",
   "theorems": [
    "Shpool.Sentinel.C20_exact",
    "Shpool.Sentinel.C20_no_injection",
    "Shpool.Sentinel.C20_segmentation",
    "Shpool.Sentinel.C20_hidden_before_sentinel",
    "Shpool.Sentinel.C20_false",
    "Shpool.Sentinel.C20_hidden_partial",
    "Shpool.Sentinel.C20_after_line_end_partial",
    "Shpool.Sentinel.C20_nothing_before",
    "Shpool.Sentinel.C20_later_sentinels_shown",
    "Shpool.Sentinel.C20_startup_sound"
   ],
   "note": "False if the text before the sentinel ends in a beginning of the sentinel (C20_false). Proved otherwise; segmentation never matters; nothing is shown before a complete sentinel. C20_exact: exactly if what precedes the sentinel falls into tries the scanner can tell from it."
  },
  {
   "property": "C21",
   "status": "proved",
   "theorems": [
    "Shpool.S2C.C21_exit_frame_last",
    "Shpool.S2C.C21_at_most_one",
    "Shpool.S2C.C21_attached_not_told",
    "Shpool.S2C.C21_told"
   ],
   "note": "Proved as stated. C21_exit_frame_last: On every connection, an exit-status frame is the last frame (hence there is at most one). C21_at_most_one: At most one. C21_attached_not_told: A client that is still attached has not been sent an exit status. C21_told: A working client that is replaced or detached is sent exit status 0, and one whose shell has exited is sent the shell's status."
  },
  {
   "property": "C22",
   "status": "partial",
   "theorems": [
    "Shpool.S2C.C22_exact",
    "Shpool.S2C.C22_detach_partial",
    "Shpool.S2C.C22_survives",
    "Shpool.S2C.C22_repeat",
    "Shpool.S2C.C22_false"
   ],
   "note": "False for a detach request that reaches a new session before its first client (C22_false). Proved for requests handled later. The rendezvous with the thread is in the handshake model. C22_exact: the detach is misreported exactly if it is handled before the first client."
  },
  {
   "property": "C23",
   "status": "proved",
   "theorems": [
    "Shpool.S2C.C23_fair",
    "Shpool.S2C.C23_settled",
    "Shpool.S2C.C23_pending",
    "Shpool.S2C.C23_converges"
   ],
   "note": "Proved as stated. C23_fair: over time: in every fair execution in which time goes on and the thread too, after the last attach or resize request the pty comes to have the size asked for and keeps it. C23_settled: With no resize pending, the pty has the size in the most recent attach or resize request. C23_pending: A pending resize is always the most recent request and is due at most 50ms from now. C23_converges: Convergence: after 50ms the next pass of the loop leaves the pty at the requested size with nothing pending."
  },
  {
   "property": "C24",
   "status": "proved",
   "theorems": [
    "Shpool.Pipe.C24_fair_one",
    "Shpool.Pipe.C24_fair",
    "Shpool.Pipe.C24_fair_status",
    "Shpool.Pipe.C24_fair_received",
    "Shpool.Pipe.C24_prints_exactly",
    "Shpool.Pipe.C24_prints_until_failure",
    "Shpool.Pipe.C24_forwards_exactly",
    "Shpool.Pipe.C24_result",
    "Shpool.Pipe.C24_hard_exit",
    "Shpool.Pipe.C24_nothing_after_decision",
    "Shpool.Pipe.C24_stays",
    "Shpool.Pipe.C24_grace",
    "Shpool.Pipe.C24_grace_end",
    "Shpool.Pipe.C24_ends",
    "Shpool.Pipe.C24_stops"
   ],
   "note": "Also over time: in every fair execution the client ends once stdin or the connection has ended or the outcome is decided, with the status received (C24_fair_one, C24_fair, C24_fair_status, C24_fair_received)."
  },
  {
   "property": "C25",
   "status": "proved",
   "theorems": [
    "Shpool.Duration.C25_minutes_seconds",
    "Shpool.Duration.C25_hours_minutes_seconds",
    "Shpool.Duration.C25_days_hours_minutes_seconds"
   ],
   "note": "Proved as stated. C25_minutes_seconds: mm:ss. C25_hours_minutes_seconds: hh:mm:ss. C25_days_hours_minutes_seconds: dd:hh:mm:ss."
  },
  {
   "property": "C26",
   "status": "proved",
   "theorems": [
    "Shpool.Duration.C26_suffix_duration"
   ],
   "note": "Proved as stated. C26_suffix_duration: A numeral followed by a unit letter denotes that many units."
  },
  {
   "property": "C27",
   "status": "partial",
   "theorems": [
    "Shpool.Duration.C27_exact_suffix",
    "Shpool.Duration.C27_exact_number",
    "Shpool.Duration.C27_exact_minutes",
    "Shpool.Duration.C27_exact_hours",
    "Shpool.Duration.C27_exact_days",
    "Shpool.Duration.C27_false",
    "Shpool.Duration.C27_accepted_form_partial",
    "Shpool.Duration.C27_release_partial",
    "Shpool.Duration.C27_rejected_partial"
   ],
   "note": "False of the code: overflow panics or wraps and text between number and unit is ignored (C27_false). Proved: the exact form and value of everything accepted under overflow checks; that without them (the release profile) the parser never panics and differs only where the other one does; and that a string without a colon not ending in s, m, h or d is rejected. C27_exact_…: for each documented form, the value, the refusal, the crash or the wrong value, as a function of the numbers."
  },
  {
   "property": "C28",
   "status": "proved",
   "theorems": [
    "Shpool.Template.C28_render_parse"
   ],
   "note": "Proved as stated. C28_render_parse: An accepted template renders back to its source, its literal pieces are non-empty and contain no opening brace, and its variable names are identifiers."
  },
  {
   "property": "C29",
   "status": "proved",
   "theorems": [
    "Shpool.Template.C29_apply_is_substitution",
    "Shpool.Template.C29_substitution_unique",
    "Shpool.Template.C29_depends_on_named_vars"
   ],
   "note": "Proved as stated. C29_apply_is_substitution: Instantiation is substitution in the source text: every group replaced by the variable's value, everything else copied, and inserted values are not expanded again (the relation never looks inside a value). C29_substitution_unique: The substitution result is uniquely determined by the source and the variables. C29_depends_on_named_vars: Only the variables named in the template matter."
  },
  {
   "property": "C30",
   "status": "proved",
   "theorems": [
    "Shpool.Template.C30_accepts_iff_wellFormed",
    "Shpool.Template.C30_unique_parse"
   ],
   "note": "Proved as stated. C30_accepts_iff_wellFormed: Acceptance is exactly well-formedness. C30_unique_parse: The parse is unique: any canonical piece list that renders to the source is the one the parser finds."
  },
  {
   "property": "C31",
   "status": "partial",
   "theorems": [
    "Shpool.EtcEnv.C31_exact",
    "Shpool.EtcEnv.C31_assignment",
    "Shpool.EtcEnv.C31_blank",
    "Shpool.EtcEnv.C31_lines_independent",
    "Shpool.EtcEnv.C31_last_line",
    "Shpool.EtcEnv.C31_well_formed",
    "Shpool.EtcEnv.C31_false",
    "Shpool.EtcEnv.C31_utf8_total_partial"
   ],
   "note": "False for a line that is not UTF-8 (even a comment): the whole file is refused (C31_false). Proved for all UTF-8 files. C31_exact: the file is refused exactly if a byte of it is not UTF-8."
  },
  {
   "property": "C32",
   "status": "proved",
   "theorems": [
    "Shpool.Config.C32_precedence",
    "Shpool.Config.C32_user_over_system",
    "Shpool.Config.C32_merge"
   ],
   "note": "Proved as stated. C32_precedence: If loading succeeds, the value of every setting is the one of the last file that mentions it, and it is unset if no file does. Loading succeeds exactly if no file is malformed. C32_user_over_system: With the two standard files: the user's value if the user's file sets it, else the system's. C32_merge: Merging is associative and an empty configuration is neutral; an unreadable or empty file changes nothing."
  },
  {
   "property": "C33",
   "status": "proved",
   "theorems": [
    "Shpool.Config.C33_last_good",
    "Shpool.Config.C33_starts"
   ],
   "note": "Proved as stated. C33_last_good: After any sequence of reloads the daemon works with what the latest successful load produced: the last reload that found no malformed file, or the initial load if every reload failed. C33_starts: The daemon starts exactly if no file is malformed at start; no later edit stops it."
  },
  {
   "property": "C34",
   "status": "partial",
   "theorems": [
    "Shpool.Watcher.C34_fair_reload",
    "Shpool.Watcher.C34_fair_partial",
    "Shpool.Watcher.C34_fair_single_partial",
    "Shpool.Watcher.C34_no_lost_change_partial",
    "Shpool.Watcher.C34_false",
    "Shpool.Watcher.C34_not_postponed",
    "Shpool.Watcher.C34_spacing",
    "Shpool.Watcher.C34_reload",
    "Shpool.Watcher.C34_repaired"
   ],
   "note": "False for removed files (C34_false: a file loaded while its directory was not yet watched and removed before it is). Proved: no change of an existing file is lost, a due reload is never postponed, reloads are a debounce period apart; over time, in every fair execution, a reload asked for happens (C34_fair_reload) and the last content of a file is loaded for good (C34_fair_partial, C34_fair_single_partial). C34_repaired: with the repair of C35_repaired, no change of an existing file would be lost for any number of files."
  },
  {
   "property": "C35",
   "status": "partial",
   "theorems": [
    "Shpool.Watcher.C35_watched_partial",
    "Shpool.Watcher.C35_single_partial",
    "Shpool.Watcher.C35_false",
    "Shpool.Watcher.C35_false_shared",
    "Shpool.Watcher.C35_false_moved_directory",
    "Shpool.Watcher.C35_false_race",
    "Shpool.Watcher.C35_repaired"
   ],
   "note": "False: a rescan with two existing files forgets one (C35_false), so do a shared missing directory, a moved directory and a race in the ancestor search (C35_false_*). Proved for one file, and for several if no event concerns two of them. C35_repaired: had rewatch looked at every entry an event concerns and kept the watches, every path asked for would be watched, for any number of files, short of moving whole directories."
  },
  {
   "property": "C36",
   "status": "proved",
   "theorems": [
    "Shpool.Env.C36_direct_child",
    "Shpool.Env.C36_injective"
   ],
   "note": "Proved as stated. C36_direct_child: The directory of every accepted session is a direct child of `<runtime dir>/sessions`: one more path component, and that component is the name. C36_injective: Different accepted names have different directories, links and files."
  },
  {
   "property": "C37",
   "status": "proved",
   "theorems": [
    "Shpool.Env.C37_agree",
    "Shpool.Env.C37_accepted"
   ],
   "note": "Proved as stated. C37_agree: The client refuses a name exactly when the daemon would. C37_accepted: What both accept."
  },
  {
   "property": "C38",
   "status": "proved",
   "theorems": [
    "Shpool.Env.C38_precedence",
    "Shpool.Env.C38_succeeds"
   ],
   "note": "Proved as stated. C38_precedence: In a new session every variable other than TERM has the value from the first of these sources that defines it, and is unset if none does: `/etc/environment`, the variables forwarded by the client (except SSH_AUTH_SOCK), the configured `env` table, the daemon's base variables. (TERM is the subject of C39.) C38_succeeds: The environment can be built unless `/etc/environment` is to be read and cannot be parsed."
  },
  {
   "property": "C39",
   "status": "partial",
   "theorems": [
    "Shpool.Env.C39_rule",
    "Shpool.Env.C39_exact",
    "Shpool.Env.C39_false",
    "Shpool.Env.C39_term_partial"
   ],
   "note": "False if /etc/environment sets TERM, which overrides the config (C39_false). Proved otherwise. C39_rule gives TERM in every case, C39_exact exactly when it is the one asked for."
  },
  {
   "property": "C40",
   "status": "proved",
   "theorems": [
    "Shpool.Env.C40_stable_path",
    "Shpool.Env.C40_spelled",
    "Shpool.Env.C40_link_follows_last_attach"
   ],
   "note": "Proved as stated. C40_stable_path: Unless the configured env table or `/etc/environment` sets it, SSH_AUTH_SOCK is a path determined by the session's name and the runtime directory alone, whatever the client's own value. C40_spelled: C38, C36. Where a session's files are, in full, for a runtime directory given without a slash at its end. C40_link_follows_last_attach: After any sequence of attaches to any sessions, the path seen in session `n` is a link to the agent socket of the most recent attach to `n` that had one."
  },
  {
   "property": "C41",
   "status": "proved",
   "theorems": [
    "Shpool.Env.C41_start_dir"
   ],
   "note": "Proved as stated. C41_start_dir: The session starts in `--dir` (`.` meaning the client's directory), else in the configured default (`.` meaning the client's directory; `$HOME` or nothing meaning the home directory), and in no other place."
  },
  {
   "property": "C42",
   "status": "proved",
   "theorems": [
    "Shpool.Client.C42_targets",
    "Shpool.Client.C42_exit_status"
   ],
   "note": "Proved as stated. C42_targets: What a kill or detach acts on: the named sessions if any are named, otherwise the session it runs in, otherwise nothing; in that last case no request is sent and the command fails. C42_exit_status: Success means: a request was sent, the daemon replied, and the reply names no session as not found (or, for detach, as not attached)."
  },
  {
   "property": "C43",
   "status": "partial",
   "theorems": [
    "Shpool.Vars.C43_view_exact",
    "Shpool.Vars.C43_known_exact",
    "Shpool.Vars.C43_defaults",
    "Shpool.Vars.C43_map",
    "Shpool.Vars.C43_names_once",
    "Shpool.Vars.C43_read",
    "Shpool.Vars.C43_answered_pushed",
    "Shpool.Vars.C43_false",
    "Shpool.Vars.C43_false_forever",
    "Shpool.Vars.C43_false_order",
    "Shpool.Vars.C43_false_gap",
    "Shpool.Vars.C43_views_partial"
   ],
   "note": "False: a session whose shell exited without a client makes every change fail without answer (C43_false, C43_false_forever); concurrent changes can be pushed out of order (C43_false_order); a change between a client's reading and attaching is never pushed to it (C43_false_gap). Proved: map semantics for all histories, every answered change was pushed with the state right after it, and the views of all clients when changes do not overlap. C43_view_exact: in every execution an attached client knows the state its session's thread took last of those waiting at the attach or pushed since, and before any what it had read; C43_known_exact: that is the state at its last reading."
  },
  {
   "property": "C44",
   "status": "partial",
   "theorems": [
    "Shpool.Server.C44_exact",
    "Shpool.Server.C44_at_most_one",
    "Shpool.Server.C44_busy",
    "Shpool.Server.C44_free",
    "Shpool.Server.C44_false",
    "Shpool.Server.C44_own_client_partial"
   ],
   "note": "At most one request has a session (C44_at_most_one) and busy answers change nothing (C44_busy) without conditions. That a request serves its own client is false when two clients create a session of one name at the same time (C44_false); proved as long as none starts while another creates (C44_own_client_partial). C44_exact: in every history a session's output goes to the client of the request that was given it last (made it, or found it free)."
  },
  {
   "property": "C45",
   "status": "partial",
   "theorems": [
    "Shpool.Sections.C45_kill_apart",
    "Shpool.Sections.C45_detach_apart",
    "Shpool.Sections.C45_false_moment",
    "Shpool.Server.C45_kill",
    "Shpool.Server.C45_detach",
    "Shpool.Server.C45_false_kill",
    "Shpool.Server.C45_false_detach",
    "Shpool.Server.C45_false",
    "Shpool.Server.C45_kill_exact",
    "Shpool.Server.C45_kill_unanswered",
    "Shpool.Server.C45_detach_exact"
   ],
   "note": "Replies and effects of kill and detach are proved for requests that are answered. False in general: a shell that cannot be killed or an ended shell-to-client thread ends the request without a reply after part of it was done (C45_false_kill, C45_false_detach). With the requests taken apart (Verif/Sections: other threads go on while a request works through its names with the table locked) kill is as described (C45_kill_apart); a detach reply tells of each session what was the case at some moment of the request (C45_detach_apart), not of all at one moment (C45_false_moment). Shpool.Sections.steps_sound and steps_complete: the two models reach the same states of the daemon, so all properties of states proved with the requests as single steps hold with them taken apart. Of all requests: C45_kill_exact and C45_detach_exact say exactly which sessions are gone or without a client afterwards and which names the reply lists, names given twice included; C45_kill_unanswered says exactly when there is no reply."
  },
  {
   "property": "C46",
   "status": "partial",
   "theorems": [
    "Shpool.Server.C46_exact",
    "Shpool.Server.C46_false",
    "Shpool.Server.C46_count_partial"
   ],
   "note": "False: a kill request naming a session twice publishes two removed events (C46_false). Proved for histories whose kill requests name no session twice. C46_exact: exactly the histories without such a request."
  },
  {
   "property": "C47",
   "status": "partial",
   "theorems": [
    "Shpool.Server.C47_false",
    "Shpool.Server.C47_false_race",
    "Shpool.Server.C47_false_thread",
    "Shpool.Server.C47_leaves_partial",
    "Shpool.Server.C47_exact"
   ],
   "note": "False in three ways: the end of the request of a killed session removes the session created since under its name (C47_false), racing creations replace each other (C47_false_race), an ended shell-to-client thread lets attach replace a running shell (C47_false_thread). Proved with these excluded (C47_leaves_partial). C47_exact: in every step of every execution exactly four things take a session out of the table."
  },
  {
   "property": "C48",
   "status": "partial",
   "theorems": [
    "Shpool.Server.C48_exact",
    "Shpool.Server.C48_fair",
    "Shpool.Server.C48_fair_partial",
    "Shpool.Server.C48_false",
    "Shpool.Server.C48_false_all",
    "Shpool.Server.C48_progress",
    "Shpool.Server.C48_free_partial"
   ],
   "note": "False: a client attaching to a session just created can deadlock the daemon for good (C48_false, C48_false_all). Proved as long as no attach request starts while another creates a session of that name (C48_free_partial; C48_fair_partial: in every fair execution every attach request under way then ends). Without any condition on the requests: in every fair execution an attach request ends, or one request holds the table's lock for ever, waiting for a session (C48_fair). handle_detach waiting under the table lock for a session's thread is covered by C76. C48_exact: a request that holds the table while waiting for a session can still get it exactly if the session is free or whoever has it has not begun to pass bytes or has finished with the table; otherwise the daemon is stuck for good."
  },
  {
   "property": "C49",
   "status": "proved",
   "theorems": [
    "Shpool.Server.C49_once",
    "Shpool.Server.C49_status"
   ],
   "note": "Proved in full for the list as a function of the table under its lock. Times are natural numbers, the error for times before 1970 is taken up in C171. That the request looks at the sessions one after the other is taken up in C153."
  },
  {
   "property": "C50",
   "status": "partial",
   "theorems": [
    "Shpool.Server.C50_exact",
    "Shpool.Server.C50_order",
    "Shpool.Server.C50_changes",
    "Shpool.Server.C50_false",
    "Shpool.Server.C50_false_name",
    "Shpool.Server.C50_attachment_partial"
   ],
   "note": "The order of the recorded times and when they change are proved without conditions (C50_order, C50_changes; the clock does not go back). That the record matches who is attached is false after an early end of a request (C50_false) and after kill and recreate (C50_false_name); proved with these excluded (C50_attachment_partial). C50_exact: in every history the record shows exactly the last request given the session, unless somebody has been recorded to have left since."
  },
  {
   "property": "C51",
   "status": "proved",
   "theorems": [
    "Shpool.Events.C51_framing",
    "Shpool.Events.C51_whole_events_in_order",
    "Shpool.Events.C51_publish_order",
    "Shpool.Events.C51_nothing_missing"
   ],
   "note": "Proved as stated. C51_framing: A line contains exactly one newline, at its end, and different events have different lines. C51_whole_events_in_order: Whatever the interleaving and however the writes are cut up, what a subscriber (connected or already dropped) has been sent consists of the lines of the first so many events published since it was accepted, in order, without gap or repetition, followed by at most the beginning of one more line. C51_publish_order: What is published is what the calls to `publish` asked for, in the order of the calls; only an event whose call found the channel full can be missing. C51_nothing_missing: For a subscriber that has not been dropped, what was sent plus what is queued for it is exactly the lines of all events broadcast since it was accepted."
  },
  {
   "property": "C52",
   "status": "proved",
   "theorems": [
    "Shpool.Events.C52_fair",
    "Shpool.Events.C52_wake_pending",
    "Shpool.Events.C52_idle_means_empty",
    "Shpool.Events.C52_sink_catches_up"
   ],
   "note": "Also over time: in every fair execution every published event is broadcast (C52_fair)."
  },
  {
   "property": "C53",
   "status": "proved",
   "theorems": [
    "Shpool.Events.C53_bounded",
    "Shpool.Events.C53_dropped_only_for_cause",
    "Shpool.Events.C53_isolation"
   ],
   "note": "Proved as stated. C53_bounded: No subscriber's queue ever holds more than 64 events, and the channel never more than 4096. C53_dropped_only_for_cause: A subscriber that is not yet dropped gets dropped only if its queue holds 64 events when another arrives, or its own socket reports an error or hang-up. C53_isolation: Erase every subscriber but one from any run: what is left is a run of the system in which only this subscriber ever connected. So everything about it (received bytes, queue, whether it is dropped) is the same as if the others, however slow or broken, did not exist."
  },
  {
   "property": "C54",
   "status": "partial",
   "theorems": [
    "Shpool.Events.C54_exact",
    "Shpool.Events.C54_fair_partial",
    "Shpool.Events.C54_false",
    "Shpool.Events.C54_false_accept",
    "Shpool.Events.C54_delivered_partial"
   ],
   "note": "False for a subscriber that connects while the sink is emptying its channel (C54_false), and for one whose connection the daemon cannot accept at first because accept(2) fails (C54_false_accept). Proved when no broadcast is in progress at the connect and no failing accept passes the subscriber over. Over time, in every fair execution: C54_fair_partial. C54_exact: a subscriber gets every event since its connect if and only if none of them was taken from the channel before its connection was accepted."
  },
  {
   "property": "C55",
   "status": "proved",
   "theorems": [
    "Shpool.Reaper.C55_not_before_deadline",
    "Shpool.Reaper.C55_only_reaping_removes"
   ],
   "note": "Proved as stated. C55_not_before_deadline: In every history, when the reaper takes a session away, that name was registered with a deadline that has passed, and everything it still has scheduled is due no earlier. Sessions of other names are untouched. C55_only_reaping_removes: The reaper's other steps never touch the table."
  },
  {
   "property": "C56",
   "status": "partial",
   "theorems": [
    "Shpool.Reaper.C56_exact",
    "Shpool.Reaper.C56_newest_registration_partial",
    "Shpool.Reaper.C56_false"
   ],
   "note": "False while the newer registration is still in the channel (C56_false): the reaper may serve its timer first and kill the new session for the old deadline. Proved from the moment the newer registration is received. C56_exact: it happens exactly if a registration of the name is on its way to the reaper at that moment."
  },
  {
   "property": "C57",
   "status": "partial",
   "theorems": [
    "Shpool.Reaper.C57_takes_exact",
    "Shpool.Reaper.C57_never",
    "Shpool.Reaper.C57_exact",
    "Shpool.Reaper.C57_fair_partial",
    "Shpool.Reaper.C57_false_ttlless_killed",
    "Shpool.Reaper.C57_false_never_reaped",
    "Shpool.Reaper.C57_ttlless_safe_partial",
    "Shpool.Reaper.C57_reaped_partial"
   ],
   "note": "Both halves are false in general (C57_false_ttlless_killed: name reuse; C57_false_never_reaped: deadline passes before the session is in the table). Proved: a name never registered is never reaped; a session inserted before its deadline whose registration is the latest of its name is reaped (C57_reaped_partial: the reaper can always go on to do so; C57_fair_partial: in every execution in which time goes on and the reaper is not starved it does). Exactly: C57_takes_exact (what a served entry takes away), C57_exact (a session left alone leaves the table, in every fair execution, exactly if the reaper has a registration of its name before it, its own or another one's), C57_never (otherwise no step of the reaper ever takes it until the name is registered again)."
  },
  {
   "property": "C58",
   "status": "partial",
   "theorems": [
    "Shpool.ExitNotify.C58_exact",
    "Shpool.ExitNotify.C58_fair",
    "Shpool.ExitNotify.C58_fair_timed",
    "Shpool.ExitNotify.C58_future_waiters",
    "Shpool.ExitNotify.C58_present_waiters_partial",
    "Shpool.ExitNotify.C58_nothing_before",
    "Shpool.ExitNotify.C58_only_announced",
    "Shpool.ExitNotify.C58_false"
   ],
   "note": "A wait that timed out just before the announcement still returns nothing (C58_false). Proved: all other present waiters and all future waiters obtain the status; nothing is reported before; in every fair execution a thread waiting when the exit is announced obtains the status and a wait with a timeout comes back (C58_fair, C58_fair_timed). C58_exact: a wait that slept returns \"still running\" exactly if its own timeout passed before the first announcement during the wait, and otherwise the status announced last."
  },
  {
   "property": "C59",
   "status": "proved",
   "theorems": [
    "Shpool.Client.C59_bounded",
    "Shpool.Client.C59_no_force",
    "Shpool.Client.C59_force"
   ],
   "note": "Proved as stated. C59_bounded: Whatever the daemon answers to a (forced or plain) attach: at most one detach request is sent, for that very session; at most 22 attach requests are sent; and after 22 answers at the latest the client has attached, reported the session busy or failed. C59_no_force: Without force a busy session is reported after one attach request and nothing else is sent. C59_force: With force, a session that stays busy makes the attach fail; one that becomes free within the first 21 retries is attached to."
  },
  {
   "property": "C60",
   "status": "proved",
   "theorems": [
    "Shpool.Client.C60_switches",
    "Shpool.Client.C60_current",
    "Shpool.Client.C60_leaves"
   ],
   "note": "Proved as stated. C60_switches: The sessions attached to, in order, are the names the template has under the initial variables and under each update, without immediate repetitions: the client switches exactly when an update changes the name. C60_current: The session it is attached to in the end is the one named by the template under the latest variables it was told about. C60_leaves: An update to an unacceptable name makes the client leave: no further session is attached to."
  },
  {
   "property": "C61",
   "status": "proved",
   "theorems": [
    "Shpool.Client.C61_same_user",
    "Shpool.Client.C61_rejected",
    "Shpool.Client.C61_served"
   ],
   "note": "Proved as stated. C61_same_user: A request is acted on only if the peer runs as the daemon's own user. C61_rejected: A peer of another user gets the version, a `forbidden` reply if it asked to attach, and the connection is closed; nothing else happens. C61_served: A peer of the same user is served, with a warning only if its binary differs."
  },
  {
   "property": "C62",
   "status": "proved",
   "theorems": [
    "Shpool.Client.C62_aligned",
    "Shpool.Client.C62_readable"
   ],
   "note": "Proved as stated. C62_aligned: After the heading there is one line per session, in order. Each is the session's name, blanks, a tab and the status, and the tab is at the same byte offset in all of them: the length of the longest name. C62_readable: If the names contain no white space (as the daemon ensures), the rows determine the sessions."
  },
  {
   "property": "C63",
   "status": "partial",
   "theorems": [
    "Shpool.Launch.C63_wait_bounded",
    "Shpool.Launch.C63_delays_double",
    "Shpool.Launch.C63_no_timeout_delays",
    "Shpool.Launch.C63_no_timeout_waits",
    "Shpool.Startup.C63_cause",
    "Shpool.Startup.C63_false",
    "Shpool.Startup.C63_one_daemon_partial",
    "Shpool.Startup.C63_pid_lock",
    "Shpool.Startup.C63_locked_out",
    "Shpool.Startup.C63_repaired"
   ],
   "note": "False after a crash: two clients that both find the socket file of a dead daemon can remove each other's new socket, and two daemons serve (C63_false). Proved: the waiting times, the lock on the pid file, and one daemon as long as none crashes. C63_cause: whenever two daemons serve, one had crashed, and the socket file of one of the two was taken away by somebody who had seen nobody listening. C63_repaired: were the lock kept as long as the daemon lives and the left-over file left to the daemon, at most one daemon would serve in every history, crashes included."
  },
  {
   "property": "C64",
   "status": "partial",
   "theorems": [
    "Shpool.Pager.C64_fair",
    "Shpool.Pager.C64_exclusive",
    "Shpool.Pager.C64_second_refused",
    "Shpool.Pager.C64_slot_freed",
    "Shpool.Pager.C64_can_end",
    "Shpool.Pager.C64_false",
    "Shpool.Pager.C64_false_gap",
    "Shpool.Pager.C64_final_size_partial",
    "Shpool.Pager.C64_session_size_partial",
    "Shpool.Pager.C64_connected",
    "Shpool.Pager.C64_exact"
   ],
   "note": "False for a resize acknowledged between the end of the pager and the connection of the session (C64_false, C64_false_gap). Proved: exclusive, slot freed, last size acknowledged before the pager ended. Exactly: C64_connected gives the size the session is connected with (the last one told between the pager's start and its decision to end), C64_exact when that is the last one told. Over time: once a pager has ended, the session is connected with its size in every fair execution (C64_fair)."
  },
  {
   "property": "C65",
   "status": "partial",
   "theorems": [
    "Shpool.Motd.C65_exact",
    "Shpool.Motd.C65_spacing",
    "Shpool.Motd.C65_spacing_all",
    "Shpool.Motd.C65_false",
    "Shpool.Motd.C65_first_partial",
    "Shpool.Motd.C65_quiet",
    "Shpool.Motd.C65_again"
   ],
   "note": "False for an interval of 2^62 seconds or more, which makes the daemon panic at start (C65_false). Proved otherwise. C65_exact: exactly if twice the interval before now is a time the clock can hold."
  },
  {
   "property": "C66",
   "status": "proved",
   "theorems": [
    "Shpool.Kill.C66_polite_first",
    "Shpool.Kill.C66_escalates_iff",
    "Shpool.Kill.C66_waits_before_kill",
    "Shpool.Kill.C66_errors",
    "Shpool.Kill.C66_success",
    "Shpool.Kill.C66_pager"
   ],
   "note": "Proved as stated. C66_polite_first: the first signal is always the hangup, and it is sent exactly once. C66_escalates_iff: the kill signal is sent exactly when the hangup was delivered and the shell did not exit within the grace period — never before the grace period. C66_waits_before_kill: and only after waiting. C66_errors: the result is an error exactly when a signal that was due could not be sent for another reason than the process being gone, and the error names that signal. C66_success: success means the shell is on its way out: it was already gone, it exited in the grace period, or the kill signal was delivered (or found it gone). C66_pager: a pager left behind is asked to terminate, and killed exactly when it has not exited in any of the seven looks over at most 1270 milliseconds; a pager that had exited is left alone."
  },
  {
   "property": "C67",
   "status": "proved",
   "theorems": [
    "Shpool.Inject.C67_ends_with_sentinel",
    "Shpool.Inject.C67_sentinel_own_line",
    "Shpool.Inject.C67_start_cmd",
    "Shpool.Inject.C67_no_start_cmd",
    "Shpool.Inject.C67_unknown_shell",
    "Shpool.Inject.C67_prefix_present",
    "Shpool.Inject.C67_fits_shell",
    "Shpool.Inject.C67_prefix_expanded",
    "Shpool.Inject.C67_when",
    "Shpool.Inject.C67_written"
   ],
   "note": "Proved as stated. C67_ends_with_sentinel: whatever the shell, prefix, name and start command, the script ends with the command that prints the prompt sentinel. C67_sentinel_own_line: that command stands on lines of its own. C67_start_cmd: a configured start command is a line of the script, between the prompt setup and the sentinel command; the prompt setup does not depend on it. C67_no_start_cmd: without a start command the script is the prompt setup and the sentinel command, nothing else. C67_unknown_shell: in a shell that is not known no prompt setup is injected. C67_prefix_present: in a known shell the expanded prefix is part of the prompt setup. C67_fits_shell: the script fits the shell: bash gets the setup of `PS1` and `PROMPT_COMMAND`, zsh that of `PROMPT`, fish that of `fish_prompt` (a login shell's name begins with a dash, so the end of the name decides). C67_prefix_expanded: the prefix is the configured one with every `$SHPOOL_SESSION_NAME` replaced by the session name. C67_when: nothing at all is injected for a custom command, for a shell without sentinel support, and when neither a prefix nor a start command is wanted; otherwise the session waits for the sentinel. C67_written: without a configured prefix the default one is used, and once the shell has started the text written to it is the command for the startup sentinel followed by the script."
  },
  {
   "property": "C68",
   "status": "proved",
   "theorems": [
    "Shpool.Motd.C68_raw",
    "Shpool.Motd.C68_lossless",
    "Shpool.Motd.C68_no_capability",
    "Shpool.Motd.C68_noupdate"
   ],
   "note": "Proved as stated. C68_raw: the raw message is the original text, byte for byte, with the carriage return inserted after every line feed and a line end appended. C68_lossless: nothing else is lost or added: for a text without carriage returns, removing them from the raw message gives back the text and one line feed. C68_no_capability: a terminal without the carriage return capability is an error, not a garbled message. C68_noupdate: The resolver's arguments contain `noupdate` exactly once more than needed: never added twice, never missing."
  },
  {
   "property": "C69",
   "status": "proved",
   "theorems": [
    "Shpool.Scroll.C69_explicit",
    "Shpool.Scroll.C69_lines_mode",
    "Shpool.Scroll.C69_default",
    "Shpool.Scroll.C69_simple",
    "Shpool.Scroll.C69_screen",
    "Shpool.Scroll.C69_lines",
    "Shpool.Scroll.C69_vterm",
    "Shpool.Scroll.C69_fed"
   ],
   "note": "Proved as stated. C69_explicit: an explicit number of lines wins. C69_lines_mode: otherwise the number in a `lines` restore mode. C69_default: otherwise 500. C69_simple: a session created in the simple mode never restores anything, with either engine, whatever the emulator, the output, the resizes and later configurations. C69_screen: the default mode and the default engine restore the screen of a terminal that has seen all output, followed by the input modes. C69_lines: the `lines` mode restores that many lines (of those kept) and the input modes. C69_vterm: the other engine, by mode. C69_fed: either emulator has been given exactly the output of the shell, in order."
  },
  {
   "property": "C70",
   "status": "partial",
   "theorems": [
    "Shpool.Sleep.C70_true_iff",
    "Shpool.Sleep.C70_false_full_time",
    "Shpool.Sleep.C70_no_overshoot",
    "Shpool.Sleep.C70_ideal_deadline",
    "Shpool.Sleep.C70_polls_first",
    "Shpool.Sleep.C70_terminates",
    "Shpool.Sleep.C70_uniform_interval",
    "Shpool.Sleep.C70_false_spin",
    "Shpool.Sleep.C70_no_spin_partial",
    "Shpool.Sleep.C70_exact",
    "Shpool.Sleep.C70_spins"
   ],
   "note": "False for a back-off whose maximal interval is zero: it polls without sleeping (C70_false_spin). Everything else proved. C70_exact: a strategy that does not shrink polls without sleeping exactly when it is a growing back-off with a maximal interval of zero; C70_spins says what that is like (any number of polls at one moment)."
  },
  {
   "property": "C71",
   "status": "proved",
   "theorems": [
    "Shpool.Env.C71_forwarded",
    "Shpool.Env.C71_reaches_session"
   ],
   "note": "Proved as stated. C71_forwarded: The attach header carries exactly the variables TERM, DISPLAY, LANG, SSH_AUTH_SOCK and those listed in `forward_env` that are set in the client, with the client's values; nothing else of its environment is sent. C71_reaches_session: end to end. A variable listed in `forward_env` (or DISPLAY, LANG) that is set in the client is set in the session to the client's value, unless `/etc/environment` sets it."
  },
  {
   "property": "C72",
   "status": "partial",
   "theorems": [
    "Shpool.Env.C72_exact",
    "Shpool.Env.C72_false",
    "Shpool.Env.C72_forward_env_partial",
    "Shpool.Env.C72_last_attach"
   ],
   "note": "False if a value contains a line feed (C72_false). Proved otherwise. C72_exact: the file gives the variables back exactly if no name has an equals sign and no name or value a line feed."
  },
  {
   "property": "C73",
   "status": "partial",
   "theorems": [
    "Shpool.Config.C73_exact",
    "Shpool.Config.C73_false",
    "Shpool.Config.C73_starts_partial"
   ],
   "note": "False if both standard files are the same file (C73_false: XDG_CONFIG_DIR=/etc). Proved otherwise. C73_exact says exactly when the daemon starts."
  },
  {
   "property": "C74",
   "status": "partial",
   "theorems": [
    "Shpool.Config.C74_exact",
    "Shpool.Config.C74_false",
    "Shpool.Config.C74_user_file_partial",
    "Shpool.Config.C74_explicit"
   ],
   "note": "False: XDG_CONFIG_DIR is consulted instead of XDG_CONFIG_HOME (C74_false). Proved if both agree or neither is set. C74_exact: the documented files are read exactly if both variables lead to the same directory."
  },
  {
   "property": "C75",
   "status": "partial",
   "theorems": [
    "Shpool.S2C.C75_dump_partial",
    "Shpool.S2C.C75_exact",
    "Shpool.S2C.C75_independent_partial",
    "Shpool.S2C.C75_false",
    "Shpool.S2C.C75_no_panic_partial",
    "Shpool.S2C.C75_false_overflow"
   ],
   "note": "False: changing the motd mode between creation and first output of a session panics its output thread (C75_false); in builds with overflow checks so does a terminal with 65535 rows or columns. Proved for sessions that do not dump the message of the day, which go on exactly as if nothing had been edited but for the text of restore snapshots (C75_independent_partial), and for those that do while the mode stays (C75_dump_partial). Exactly: the thread panics iff it shows its first output while the message of the day is to be dumped and the mode is another, or, with overflow checks, a terminal of 65535 rows or columns attaches (C75_exact)."
  },
  {
   "property": "C76",
   "status": "partial",
   "theorems": [
    "Shpool.Handshake.C76_exact",
    "Shpool.Handshake.C76_exact_goes_on",
    "Shpool.Handshake.C76_timed_ends",
    "Shpool.Handshake.C76_fair_partial",
    "Shpool.Handshake.C76_wedged_forever",
    "Shpool.Handshake.C76_false",
    "Shpool.Handshake.C76_false_untimed",
    "Shpool.Handshake.C76_recovers_partial",
    "Shpool.Handshake.C76_own_answer",
    "Shpool.Handshake.C76_outcome"
   ],
   "note": "False: a requester that gives up waiting for an acknowledgement leaves the shell-to-client thread blocked in sending it for ever (C76_false, C76_wedged_forever); a following `shpool detach` then blocks the whole daemon (C76_false_untimed). Proved: recovery while every acknowledgement is in time (C76_recovers_partial; C76_fair_partial: in every fair execution every request ends), a request with time limits ends in every fair execution whatever the state of the session (C76_timed_ends), and answers are never mixed up. C76_exact: exactly the states from which the thread can take another request or end; C76_exact_goes_on: exactly those from which it can take another request."
  },
  {
   "property": "C77",
   "status": "partial",
   "theorems": [
    "Shpool.Kill.C77_exact",
    "Shpool.Kill.C77_cause",
    "Shpool.Kill.C77_false",
    "Shpool.Kill.C77_own_shell_partial",
    "Shpool.Kill.C77_no_reap_partial",
    "Shpool.Kill.C77_remove"
   ],
   "note": "False: the shell of a detached session is reaped on exit while the session stays in the table; its process number can be reused and gets the signal (C77_false). Proved while the shell has not been reaped. C77_exact: a kill hits whoever has the process number after the history (read off the history); C77_cause: a wrong process is hit only if the end of the session's own shell was collected while the session stayed in the table."
  },
  {
   "property": "C78",
   "status": "partial",
   "theorems": [
    "Shpool.Inject.C78_exact",
    "Shpool.Inject.C78_quoted",
    "Shpool.Inject.C78_false",
    "Shpool.Inject.C78_false_each",
    "Shpool.Inject.C78_literal_partial"
   ],
   "note": "False for names with a quotation mark, backslash, dollar sign, backquote, exclamation mark or (zsh) percent sign (C78_false, C78_false_each). Proved for all other names and bash, zsh and fish, with the default prefix. C78_exact: exactly the names all of whose characters stand for themselves."
  },
  {
   "property": "C79",
   "status": "partial",
   "theorems": [
    "Shpool.Launch.C79_false",
    "Shpool.Launch.C79_found_partial",
    "Shpool.Launch.C79_repaired",
    "Shpool.Launch.C79_repaired_last"
   ],
   "note": "False: the last attempt is made before the last, longest sleep (C79_false). Proved: found exactly if the daemon answers within 2550 ms. C79_repaired: with one more attempt after the last sleep every daemon that answers within the waiting time is found, and nobody waits longer; C79_repaired_last for any number of attempts."
  },
  {
   "property": "C80",
   "status": "partial",
   "theorems": [
    "Shpool.Motd.C80_exact",
    "Shpool.Motd.C80_false",
    "Shpool.Motd.C80_never_fails_partial"
   ],
   "note": "False if the clock is set back after a display (C80_false). Proved for clocks that never go back. C80_exact: exactly if the clock is behind the time of the last display."
  },
  {
   "property": "C81",
   "status": "partial",
   "theorems": [
    "Shpool.Inject.C81_exact",
    "Shpool.Inject.C81_false",
    "Shpool.Inject.C81_told_partial",
    "Shpool.ShellStart.C81_false_slow"
   ],
   "note": "False if the shell's start files take longer than the waiting time: nothing is told to the shell but its output stays hidden (C81_false; from end to end, C81_false_slow). Proved if the start was noticed. C81_exact: exactly if the start was noticed in time."
  },
  {
   "property": "C82",
   "status": "partial",
   "theorems": [
    "Shpool.Inject.C82_exact",
    "Shpool.Inject.C82_false",
    "Shpool.Inject.C82_false_special",
    "Shpool.Inject.C82_words_partial",
    "Shpool.Inject.C82_replaced",
    "Shpool.Inject.C82_not_replaced"
   ],
   "note": "False if the path contains a blank or a character special to a shell: it is not quoted (C82_false, C82_false_special). Proved for all other paths. C82_exact: exactly the paths without blanks, newlines and special characters."
  },
  {
   "property": "C83",
   "status": "partial",
   "theorems": [
    "Shpool.Fds.C83_false",
    "Shpool.Fds.C83_inherited_partial",
    "Shpool.Fds.C83_cloexec_partial",
    "Shpool.Fds.C83_exact"
   ],
   "note": "False: the loop runs to the number of the sysconf name (4), not to the limit, so only descriptor 3 is closed (C83_false). Proved: exactly the descriptors without close-on-exec other than 3 are inherited. C83_exact: closing up to a bound is enough if and only if the bound is at least the limit of open files."
  },
  {
   "property": "C84",
   "status": "partial",
   "theorems": [
    "Shpool.Startup.C84_cause",
    "Shpool.Startup.C84_false",
    "Shpool.Startup.C84_no_crash_partial",
    "Shpool.Startup.C84_uses_running",
    "Shpool.Startup.C84_fails_only",
    "Shpool.Startup.C84_ending_daemon",
    "Shpool.Startup.C84_recovers",
    "Shpool.Startup.C84_repaired",
    "Shpool.Startup.C84_repaired_recovers"
   ],
   "note": "False after a crash: of two clients that find the left-over socket the second fails to remove it and reports an error (C84_false). Proved: no failure without a crash; failure only in that situation; recovery of a client that is alone. C84_cause: whenever a client is turned away, somebody else removed the left-over file between its looking and its removing. C84_repaired: the same two changes would let no client fail and no daemon with the lock give up; C84_repaired_recovers: a daemon started while nobody holds the lock would end up serving whatever was left behind."
  },
  {
   "property": "C85",
   "status": "partial",
   "theorems": [
    "Shpool.Startup.C85_events_cause",
    "Shpool.Startup.C85_control_cause",
    "Shpool.Startup.C85_pid_cause",
    "Shpool.Startup.C85_false_events",
    "Shpool.Startup.C85_false_pid",
    "Shpool.Startup.C85_false",
    "Shpool.Startup.C85_control_partial",
    "Shpool.Startup.C85_alone_partial",
    "Shpool.Startup.C85_pid_by_hand",
    "Shpool.Startup.C85_clean_exit",
    "Shpool.Startup.C85_repaired"
   ],
   "note": "False: a second daemon takes over and removes the events socket before it notices the first (C85_false_events), and a second daemonized one removes the pid file (C85_false_pid). Proved: the control socket stays without crashes, and everything stays if no second daemon is started. C85_control_cause, C85_events_cause, C85_pid_cause: every file a serving daemon has lost was taken away by another one (who, and when), in every history with crashes. C85_repaired: with the lock kept as long as the daemon lives, a serving daemon would keep both sockets and its pid file in every history."
  },
  {
   "property": "C86",
   "status": "partial",
   "theorems": [
    "Shpool.Startup.C86_false_same_dir",
    "Shpool.Startup.C86_false",
    "Shpool.Startup.C86_false_name",
    "Shpool.Startup.C86_different_dirs_partial",
    "Shpool.Startup.C86_exact",
    "Shpool.Startup.C86_runtime_dir"
   ],
   "note": "False for sockets in the same directory, which share events socket, pid file and log file (C86_false_same_dir). Proved for different directories and for the per-instance runtime directory. C86_exact: nothing is shared if and only if the directories differ."
  },
  {
   "property": "C87",
   "status": "partial",
   "theorems": [
    "Shpool.Perms.C87_exact",
    "Shpool.Perms.C87_false",
    "Shpool.Perms.C87_false_files",
    "Shpool.Perms.C87_plain_partial"
   ],
   "note": "False: a daemon launched by a client clears its umask for good, so everything made in its sessions can be changed by everybody (C87_false, C87_false_files). Proved for daemons started by hand or by systemd. C87_exact says exactly when the umask is kept."
  },
  {
   "property": "C88",
   "status": "partial",
   "theorems": [
    "Shpool.Attach.C88_exact",
    "Shpool.Attach.C88_restored_partial",
    "Shpool.Attach.C88_not_a_terminal",
    "Shpool.Attach.C88_raw",
    "Shpool.Attach.C88_false",
    "Shpool.Attach.C88_noecho"
   ],
   "note": "False for an end by a signal such as SIGTERM, which leaves the terminal raw (C88_false). Proved for every other end. C88_exact: what a signal leaves behind."
  },
  {
   "property": "C89",
   "status": "partial",
   "theorems": [
    "Shpool.Winch.C89_fair",
    "Shpool.Winch.C89_false",
    "Shpool.Winch.C89_false_reattach",
    "Shpool.Winch.C89_follows_partial",
    "Shpool.Winch.C89_next_resize",
    "Shpool.Winch.C89_only_own",
    "Shpool.Winch.C89_exact"
   ],
   "note": "False if the terminal is resized between reading the size and the attach (C89_false, C89_false_reattach). Proved when no resize request overtakes the attach; the next resize always repairs it. C89_exact: the size is wrong if and only if the terminal was resized after its size was read and every request about it went out before the attach. Over time: a client that stays attached, whose terminal is not resized again and whose requests do not fail: the session gets the size of the terminal and keeps it, in every fair execution (C89_fair)."
  },
  {
   "property": "C90",
   "status": "partial",
   "theorems": [
    "Shpool.Attach.C90_exact",
    "Shpool.Attach.C90_false",
    "Shpool.Attach.C90_false_name",
    "Shpool.Attach.C90_zero_partial",
    "Shpool.Attach.C90_status",
    "Shpool.Attach.C90_background"
   ],
   "note": "False: a busy session and an unacceptable name are reported with status 0 (C90_false, C90_false_name). Proved with --force and good names; the statuses of all other ends are proved. C90_exact: the exit status is 0 exactly in five ways, two of which are the defects (also after a switch between sessions)."
  },
  {
   "property": "C91",
   "status": "partial",
   "theorems": [
    "Shpool.Listing.C91_request_partial",
    "Shpool.Server.C91_false",
    "Shpool.Server.C91_false_created",
    "Shpool.Server.C91_false_abort",
    "Shpool.Server.C91_names_partial",
    "Shpool.Server.C91_settled_partial"
   ],
   "note": "False: the detached event is published before the session stops counting as attached, created and attached before it counts as attached, and a client lost during the pager causes no event (C91_false, C91_false_created, C91_false_abort). Proved: sessions and names never change without an event; in orderly histories, lists taken when no request is in the middle of being served stay right until the next event. C91_request_partial: the same for the answers of list requests, which look at the sessions one after the other: between two quiet moments without an event, the list is the same at every moment, so it does not matter that the answer is put together over time."
  },
  {
   "property": "C92",
   "status": "partial",
   "theorems": [
    "Shpool.Server.C92_false",
    "Shpool.Server.C92_forever",
    "Shpool.Server.C92_connected_partial",
    "Shpool.Server.C92_exact"
   ],
   "note": "False after the thread that serves the clients of a session failed: all later attaches are told they are attached and get nothing (C92_false, C92_forever). Proved if attaches of one name do not race and the threads do not fail. C92_exact: the client is connected when its request starts streaming if and only if the session's shell-to-client thread has not ended."
  },
  {
   "property": "C93",
   "status": "partial",
   "theorems": [
    "Shpool.Spawn.C93_false",
    "Shpool.Spawn.C93_deadline_partial",
    "Shpool.Spawn.C93_exact",
    "Shpool.Spawn.C93_repaired",
    "Shpool.Spawn.C93_created",
    "Shpool.Spawn.C93_request"
   ],
   "note": "False for a ttl of 2^63 seconds or more, which crashes the thread serving the request (C93_false). Proved for all others. C93_exact: exactly when the thread panics; C93_repaired: taking such a ttl for none, it never would."
  },
  {
   "property": "C94",
   "status": "partial",
   "theorems": [
    "Shpool.Bidi.C94_cause",
    "Shpool.Bidi.C94_each",
    "Shpool.Bidi.C94_false",
    "Shpool.Bidi.C94_told_partial",
    "Shpool.Spawn.C94_watch",
    "Shpool.Spawn.C94_waiting",
    "Shpool.Spawn.C94_end_to_end"
   ],
   "note": "False: if the thread serving the client is busy for 300 ms when the shell exits, the connection is closed without the status (C94_false). Proved: in undisturbed attachments, for all schedules (C94_told_partial); and the translation from the results of waitpid to what the client is told. Not told it is only if the shell-to-client thread does not get to a message in time, ends by an error, or the terminal is closed 500 ms before the shell exits (C94_cause); each of these is enough (C94_each). Other failures cannot be the reason."
  },
  {
   "property": "C95",
   "status": "proved",
   "theorems": [
    "Shpool.Spawn.C95_login",
    "Shpool.Spawn.C95_no_name",
    "Shpool.Spawn.C95_norc",
    "Shpool.Spawn.C95_command"
   ],
   "note": "Fully proved; splitting the command line into words is a parameter."
  },
  {
   "property": "C96",
   "status": "partial",
   "theorems": [
    "Shpool.Spawn.C96_exact",
    "Shpool.Spawn.C96_false",
    "Shpool.Spawn.C96_shell_partial"
   ],
   "note": "False when the configuration sets a shell: SHELL is still the user's default one (C96_false). Proved otherwise. C96_exact says exactly when SHELL is the shell that runs."
  },
  {
   "property": "C97",
   "status": "partial",
   "theorems": [
    "Shpool.Spawn.C97_exact",
    "Shpool.Spawn.C97_false",
    "Shpool.Spawn.C97_nothing_partial",
    "Shpool.Spawn.C97_created"
   ],
   "note": "False for a ttl out of range, a thread that cannot be started and a reaper that is gone: the shell was already started (C97_false). Proved otherwise. C97_exact: exactly the causes of a shell without a session."
  },
  {
   "property": "C98",
   "status": "partial",
   "theorems": [
    "Shpool.Spawn.C98_rule",
    "Shpool.Spawn.C98_exact",
    "Shpool.Spawn.C98_false",
    "Shpool.Spawn.C98_term_partial"
   ],
   "note": "False if /etc/environment sets TERM (C98_false). Proved otherwise. C98_rule gives the database used in every case, C98_exact exactly when it is the right one."
  },
  {
   "property": "C99",
   "status": "partial",
   "theorems": [
    "Shpool.Perms.C99_exact",
    "Shpool.Perms.C99_false",
    "Shpool.Perms.C99_false_nosymlink",
    "Shpool.Perms.C99_outer_partial",
    "Shpool.Perms.C99_locked_partial",
    "Shpool.Perms.C99_agent_partial",
    "Shpool.Perms.C99_umask_partial"
   ],
   "note": "False in directories open to others, when the client has no agent or nosymlink_ssh_auth_sock is set (C99_false, C99_false_nosymlink). Proved: below a closed directory; after the first attach with an agent; always, if all clients have one; with a umask that takes the permission to read. C99_exact says exactly when another user can read the forwarded variables, for every umask, history and directory above."
  },
  {
   "property": "C100",
   "status": "partial",
   "theorems": [
    "Shpool.Perms.C100_who",
    "Shpool.Perms.C100_false",
    "Shpool.Perms.C100_closed_partial",
    "Shpool.Perms.C100_repaired"
   ],
   "note": "False for a daemon launched by a client in a directory open to others, since its umask is empty and there is no check of the peer (C100_false). Who can subscribe is determined exactly (C100_who). Proved for the other ways to start and for closed directories. C100_repaired: exactly which umasks, if daemonize set one instead of clearing it, would keep others from subscribing."
  },
  {
   "property": "C101",
   "status": "partial",
   "theorems": [
    "Shpool.Env.C101_false_runs",
    "Shpool.Env.C101_false",
    "Shpool.Env.C101_source_partial",
    "Shpool.Env.C101_line_unique",
    "Shpool.Env.C101_exact",
    "Shpool.Env.C101_repaired"
   ],
   "note": "False: a value with a blank makes the shell run the rest of it as a command (C101_false, C101_false_runs). Proved for values without characters that can mean something to the shell. C101_exact, with the shell language read in full but for $, ` and ~ (quotes over lines, comments, operators): the file does what it should exactly if no value has one of the listed characters; C101_repaired: with values in single quotes it always does."
  },
  {
   "property": "C102",
   "status": "proved",
   "theorems": [
    "Shpool.Wire.C102_requests",
    "Shpool.Wire.C102_replies",
    "Shpool.Wire.C102_attach_stream",
    "Shpool.Wire.C102_variables",
    "Shpool.Wire.C102_prefix_free",
    "Shpool.Wire.C102_shortest"
   ],
   "note": "The MessagePack crates are modelled from the MessagePack specification and their documentation."
  },
  {
   "property": "C103",
   "status": "partial",
   "theorems": [
    "Shpool.Wire.C103_attach_request",
    "Shpool.Wire.C103_list_reply",
    "Shpool.Wire.C103_simple",
    "Shpool.Wire.C103_required_partial",
    "Shpool.Wire.C103_requests",
    "Shpool.Wire.C103_answers",
    "Shpool.Wire.C103_false_new_state",
    "Shpool.Wire.C103_false",
    "Shpool.Wire.C103_twice",
    "Shpool.Wire.C103_not_text",
    "Shpool.Wire.C103_false_new_request",
    "Shpool.Wire.C103_exact",
    "Shpool.Wire.C103_repaired"
   ],
   "note": "False: some fields have no default, e.g. the sizes in pixels of a window (C103_false); one session in an unknown state makes the whole list unreadable (C103_false_new_state); unknown requests are not answered (C103_false_new_request). Proved: attach requests, lists, and the simple messages, with unknown, missing and reordered fields; the other messages with unknown and reordered fields. C103_exact: a window size with some of its fields is read if and only if all four are there; C103_repaired: with a default for each field it always is."
  },
  {
   "property": "C104",
   "status": "partial",
   "theorems": [
    "Shpool.Hooks.C104_request",
    "Shpool.Hooks.C104_no_effect",
    "Shpool.Hooks.C104_moment",
    "Shpool.Hooks.C104_moment_late",
    "Shpool.Hooks.C104_false",
    "Shpool.Hooks.C104_false_pager",
    "Shpool.Hooks.C104_false_kill",
    "Shpool.Hooks.C104_false_order",
    "Shpool.Hooks.C104_turns_partial"
   ],
   "note": "False: on_new_session is called before the shell is started and is not taken back if that fails (C104_false); a client that hangs up on the pager gives no closing call (C104_false_pager); a session that ends while detached gives none either (C104_false_kill); killed and created anew, the calls overlap (C104_false_order). Proved: the calls of each request; that they have no effect; what holds when they are made; turns, while requests for a name do not race or fail."
  },
  {
   "property": "C105",
   "status": "partial",
   "theorems": [
    "Shpool.Activation.C105_socket_test",
    "Shpool.Activation.C105_activated_partial",
    "Shpool.Activation.C105_not_asked",
    "Shpool.Activation.C105_only_a_socket",
    "Shpool.Activation.C105_false_stale",
    "Shpool.Activation.C105_false",
    "Shpool.Activation.C105_exact"
   ],
   "note": "False: LISTEN_PID is not looked at, so with LISTEN_FDS=1 left over from another process the daemon takes the first thing it opened itself for the socket, and closes it if it is not one (C105_false, C105_false_stale). Proved: the socket passed is used; without being asked nothing is touched; only sockets are taken. C105_exact: it goes wrong if and only if LISTEN_FDS asks for one socket and descriptor 3 is a socket that was not passed, or the daemon's own and no socket."
  },
  {
   "property": "C106",
   "status": "partial",
   "theorems": [
    "Shpool.User.C106_exact_partial",
    "Shpool.User.C106_login_partial",
    "Shpool.User.C106_own_entry",
    "Shpool.User.C106_false_large_entry",
    "Shpool.User.C106_error",
    "Shpool.User.C106_false_no_shell",
    "Shpool.User.C106_false_not_utf8",
    "Shpool.User.C106_false"
   ],
   "note": "False for entries larger than 4096 bytes (C106_false_large_entry), without a shell (C106_false_no_shell, C106_false) or not UTF-8 (C106_false_not_utf8). Proved for all others; and that nobody gets what is in another entry."
  },
  {
   "property": "C107",
   "status": "partial",
   "theorems": [
    "Shpool.Bidi.C107_fair_partial",
    "Shpool.Bidi.C107_false",
    "Shpool.Bidi.C107_false_detach",
    "Shpool.Bidi.C107_ends_partial",
    "Shpool.Bidi.C107_no_threads"
   ],
   "note": "False if the shell does not read what the client had typed (C107_false), and for ever if a shpool detach comes after a late acknowledgement (C107_false_detach). Proved otherwise: the request can end from every state (C107_ends_partial), and it does end in every infinite execution in which threads that can run for ever do run, waits end at their time limits and a thread that finds the mutex free again and again gets it (C107_fair_partial)."
  },
  {
   "property": "C108",
   "status": "partial",
   "theorems": [
    "Shpool.Bidi.C108_cause",
    "Shpool.Bidi.C108_each",
    "Shpool.Bidi.C108_false",
    "Shpool.Bidi.C108_true_partial",
    "Shpool.Bidi.C108_once"
   ],
   "note": "False: a key pressed while the shell exits can make the client be told 0 (C108_false). Proved up to failures of reading and writing, and malformed keybindings; never two statuses. The reasons for a wrong 0 are exactly malformed keybindings and a failing write to the closed terminal (C108_cause, C108_each)."
  },
  {
   "property": "C109",
   "status": "partial",
   "theorems": [
    "Shpool.Bidi.C109_false",
    "Shpool.Bidi.C109_false_race",
    "Shpool.Bidi.C109_removed_partial",
    "Shpool.Bidi.C109_only_exited",
    "Shpool.Bidi.C109_exact"
   ],
   "note": "False: after a failed write of a key (C109_false), or when the heartbeat notices the end before the supervisor (C109_false_race). Proved if the supervisor noticed the exit and nothing failed; sessions of running shells are never removed this way. C109_exact: the session is removed if and only if the request ended without an error and its supervisor had noticed the exit."
  },
  {
   "property": "C110",
   "status": "proved",
   "theorems": [
    "Shpool.Bidi.C110_former",
    "Shpool.Bidi.C110_own_input",
    "Shpool.Bidi.C110_at_most_one"
   ],
   "note": "Fully proved; the client's bytes are items without structure here (the scan for detach keys is C14-C17)."
  },
  {
   "property": "C111",
   "status": "proved",
   "theorems": [
    "Shpool.Json.C111_list",
    "Shpool.Json.C111_injective"
   ],
   "note": "Fully proved against an independent reader for JSON (RFC 8259) in Json/Spec.lean; serde_json's printer is modelled from its documentation."
  },
  {
   "property": "C112",
   "status": "partial",
   "theorems": [
    "Shpool.Json.C112_two",
    "Shpool.Json.C112_exact",
    "Shpool.Json.C112_json",
    "Shpool.Json.C112_get",
    "Shpool.Json.C112_get_tells",
    "Shpool.Json.C112_false",
    "Shpool.Json.C112_text_partial"
   ],
   "note": "False for the output without --json if a value has a newline (C112_false). Proved for --json, for var get, and for texts without such characters. C112_exact: the text is that of one table only, exactly if there is no variable or a single one without tabs; C112_two: with two or more it is always also that of a single variable."
  },
  {
   "property": "C113",
   "status": "partial",
   "theorems": [
    "Shpool.Json.C113_event_text",
    "Shpool.Json.C113_false",
    "Shpool.Json.C113_lines_partial",
    "Shpool.Json.C113_exact"
   ],
   "note": "False if the connection ends in the middle of an event (C113_false): the piece is printed as a line. Proved for all lines but such a last one. Exactly: all lines printed are events iff what the subscriber got is a row of whole events but for perhaps the last newline (C113_exact)."
  },
  {
   "property": "C114",
   "status": "partial",
   "theorems": [
    "Shpool.Prompt.C114_quick_partial",
    "Shpool.Prompt.C114_false",
    "Shpool.Prompt.C114_rest",
    "Shpool.Prompt.C114_no_question",
    "Shpool.Prompt.C114_repaired"
   ],
   "note": "False: the daemon waits 200 ms for the request, so the user has to press enter within that time (C114_false). Proved exactly for which times it works (C114_quick_partial), and that what is typed afterwards is left for the shell. C114_repaired: if the client dialled again after the answer, the time the user takes would not matter."
  },
  {
   "property": "C115",
   "status": "partial",
   "theorems": [
    "Shpool.Signals.C115_exact",
    "Shpool.Signals.C115_fair_partial",
    "Shpool.Signals.C115_false",
    "Shpool.Signals.C115_clean",
    "Shpool.Signals.C115_unsignalled",
    "Shpool.Signals.C115_first_partial",
    "Shpool.Signals.C115_second",
    "Shpool.Signals.C115_armed"
   ],
   "note": "False for a signal that arrives while the handlers are being installed (C115_false): it is lost. Proved for all later signals (C115_first_partial; C115_fair_partial: in every fair execution the daemon ends), for the second one, and that nothing else ends the daemon. C115_exact: the first signal ends the daemon if and only if it arrives before anything is registered for it or after everything is."
  },
  {
   "property": "C116",
   "status": "partial",
   "theorems": [
    "Shpool.CfgLock.C116_fair_partial",
    "Shpool.CfgLock.C116_fair_reload_partial",
    "Shpool.CfgLock.C116_exact_partial",
    "Shpool.CfgLock.C116_false",
    "Shpool.CfgLock.C116_false_new",
    "Shpool.CfgLock.C116_others_flat",
    "Shpool.CfgLock.C116_forever",
    "Shpool.CfgLock.C116_forever_attach",
    "Shpool.CfgLock.C116_other_requests",
    "Shpool.CfgLock.C116_quiet_partial"
   ],
   "note": "False: an attach request takes a second read guard of the configuration while it holds one (build_shell_env; start of the output thread); if the watcher asks for the write guard in between, both wait for each other for ever (C116_false, C116_false_new), and so does everything that looks at the configuration later (C116_forever, C116_forever_attach). Proved exactly for the other states (C116_exact_partial). A daemon that was started automatically never reloads (C120). In every fair execution in which that state is not entered everything asked for is done and every change of the files is dealt with (C116_fair_partial, C116_fair_reload_partial)."
  },
  {
   "property": "C117",
   "status": "partial",
   "theorems": [
    "Shpool.CfgLock.C117_read",
    "Shpool.CfgLock.C117_exact",
    "Shpool.CfgLock.C117_false",
    "Shpool.CfgLock.C117_forwards",
    "Shpool.CfgLock.C117_nested",
    "Shpool.CfgLock.C117_environment_partial",
    "Shpool.CfgLock.C117_scrollback_partial",
    "Shpool.CfgLock.C117_false_spool"
   ],
   "note": "False: the configuration is read again and again during a request (C117_false, C117_false_spool). Proved for what is read under one guard (environment, scrollback), and that versions never go back. Exactly: what a thread reads is of different versions iff a reload falls between two of its reads (C117_exact); C117_read says which versions it has been given."
  },
  {
   "property": "C118",
   "status": "partial",
   "theorems": [
    "Shpool.Symlink.C118_exact",
    "Shpool.Symlink.C118_false",
    "Shpool.Symlink.C118_false_directory",
    "Shpool.Symlink.C118_false_dangling",
    "Shpool.Symlink.C118_edit_partial",
    "Shpool.Symlink.C118_stays_partial",
    "Shpool.Symlink.C118_created_partial",
    "Shpool.Symlink.C118_next_partial"
   ],
   "note": "False: the paths are resolved once, so making a link lead elsewhere is not noticed (C118_false, C118_false_directory), nor is creating the target of a dangling link (C118_false_dangling). Proved for edits, replacement, removal and creation of the file itself, at its real place. C118_exact: a change that makes a difference to what is read is noticed if and only if it is made to the real file."
  },
  {
   "property": "C119",
   "status": "partial",
   "theorems": [
    "Shpool.Symlink.C119_false",
    "Shpool.Symlink.C119_exact_partial",
    "Shpool.Symlink.C119_separate",
    "Shpool.Symlink.C119_single"
   ],
   "note": "False: if the system-wide and the user's configuration are the same file by way of links, watching the second is an error and every shpool command fails (C119_false). Proved that this is the only case (C119_exact_partial)."
  },
  {
   "property": "C120",
   "status": "partial",
   "theorems": [
    "Shpool.Fork.C120_frozen",
    "Shpool.Fork.C120_false",
    "Shpool.Fork.C120_follows_partial",
    "Shpool.Fork.C120_exact",
    "Shpool.Fork.C120_quiet_partial",
    "Shpool.Fork.C120_wellformed"
   ],
   "note": "False: the thread that watches the configuration is started before the daemon forks into the background, so a daemon that was started automatically has none and never notices an edit (C120_false, C120_frozen). Proved for daemons that do not fork (C120_follows_partial, C120_quiet_partial). Exactly: a serving daemon can come to use a good file by its own steps iff it was not started automatically or already uses it (C120_exact)."
  },
  {
   "property": "C121",
   "status": "partial",
   "theorems": [
    "Shpool.Fork.C121_stuck",
    "Shpool.Fork.C121_false",
    "Shpool.Fork.C121_exact_partial",
    "Shpool.Fork.C121_by_hand",
    "Shpool.Fork.C121_quick_partial"
   ],
   "note": "False: if the fork happens while the watcher reloads, the child has a lock that nobody lets go of (C121_false, C121_stuck). Proved that this is the only case (C121_exact_partial)."
  },
  {
   "property": "C122",
   "status": "partial",
   "theorems": [
    "Shpool.Main.C122_nothing_works",
    "Shpool.Main.C122_false",
    "Shpool.Main.C122_readable_partial",
    "Shpool.Main.C122_exact"
   ],
   "note": "False: every command loads the configuration first and fails if it cannot (C122_false, C122_nothing_works). Proved for a configuration that can be read, e.g. one named on the command line. C122_exact: a command gets to a running daemon if and only if the configuration it loads can be read."
  },
  {
   "property": "C123",
   "status": "proved",
   "theorems": [
    "Shpool.Main.C123_exact",
    "Shpool.Main.C123_same",
    "Shpool.Main.C123_waits"
   ],
   "note": "Proved as stated. C123_exact: a command starts a daemon exactly if it talks to one, was not told not to (`-D`), was told to (`-d`) or the configuration does not say otherwise, none answers on its socket, and starting it is possible at all. C123_same: a daemon that is started is told to use the socket that the command uses and the configuration file that the command was given. C123_waits: a command that started a daemon goes on to its work only if the daemon has come up."
  },
  {
   "property": "C124",
   "status": "partial",
   "theorems": [
    "Shpool.Main.C124_exact_partial",
    "Shpool.Main.C124_false",
    "Shpool.Main.C124_false_fails"
   ],
   "note": "False for a relative path: the daemon changes its directory to the root before it binds (C124_false), so that the command fails (C124_false_fails). Proved exactly when it holds (C124_exact_partial)."
  },
  {
   "property": "C125",
   "status": "partial",
   "theorems": [
    "Shpool.Main.C125_exact_partial",
    "Shpool.Main.C125_before",
    "Shpool.Main.C125_false_ttl",
    "Shpool.Main.C125_false_refused",
    "Shpool.Main.C125_false"
   ],
   "note": "False: an error of a subcommand only goes to the log, which clients do not have by default (C125_false, C125_false_ttl, C125_false_refused). Proved exactly which failures are silent (C125_exact_partial)."
  },
  {
   "property": "C126",
   "status": "partial",
   "theorems": [
    "Shpool.Pipe.C126_false",
    "Shpool.Pipe.C126_exact_partial",
    "Shpool.Pipe.C126_undone_partial",
    "Shpool.Pipe.C126_carried"
   ],
   "note": "False: a detach while a program uses the alternate screen leaves the terminal in it (C126_false). Proved that the client adds nothing of its own, so that the terminal has exactly the modes that the session's output leaves (C126_exact_partial, C126_undone_partial)."
  },
  {
   "property": "C127",
   "status": "partial",
   "theorems": [
    "Shpool.Motd.C127_false",
    "Shpool.Motd.C127_false_removed",
    "Shpool.Motd.C127_false_used_up",
    "Shpool.Motd.C127_false_race",
    "Shpool.Motd.C127_fails_exact_partial",
    "Shpool.Motd.C127_follows_partial"
   ],
   "note": "False: the interval is the one of the start of the daemon (C127_false, C127_false_removed); a pager that fails uses up the interval (C127_false_used_up); an edit between the two looks at the mode makes the attach fail (C127_false_race). Proved as long as the interval is not edited (C127_follows_partial), and exactly when the attach fails (C127_fails_exact_partial)."
  },
  {
   "property": "C128",
   "status": "partial",
   "theorems": [
    "Shpool.Events.C128_false",
    "Shpool.Events.C128_false_unbounded",
    "Shpool.Events.C128_forgotten_partial",
    "Shpool.Events.C128_exact"
   ],
   "note": "False: the daemon only notices when there is something to write, so without events any number of dead connections is held (C128_false, C128_false_unbounded). Proved that one iteration of the loop with something to write forgets it (C128_forgotten_partial). C128_exact: an iteration forgets it exactly if something was waiting to be written to it or an event is taken."
  },
  {
   "property": "C129",
   "status": "partial",
   "theorems": [
    "Shpool.Slow.C129_false",
    "Shpool.Slow.C129_false_any",
    "Shpool.Slow.C129_bound_partial",
    "Shpool.Slow.C129_read_exact",
    "Shpool.Slow.C129_silent"
   ],
   "note": "False: the timeout limits each read, not the request; a client that sends a byte now and then keeps its thread as long as it likes (C129_false, C129_false_any). Proved: at most the timeout per byte (C129_bound_partial), noticed one timeout after the client's last action (C129_silent), exactly which requests are read (C129_read_exact)."
  },
  {
   "property": "C130",
   "status": "partial",
   "theorems": [
    "Shpool.Slow.C130_false",
    "Shpool.Slow.C130_stuck_reader",
    "Shpool.Slow.C130_exact_partial",
    "Shpool.Slow.C130_fits_partial",
    "Shpool.Slow.C130_bound_partial"
   ],
   "note": "False: the list of sessions is written with the session table locked (C130_false). Proved exactly who is not held up (C130_exact_partial), that nobody is if the answers fit into the sockets (C130_fits_partial), and a bound (C130_bound_partial)."
  },
  {
   "property": "C131",
   "status": "partial",
   "theorems": [
    "Shpool.Slow.C131_false",
    "Shpool.Slow.C131_false_any",
    "Shpool.Slow.C131_exact_partial",
    "Shpool.Slow.C131_up_partial"
   ],
   "note": "False: if the system refuses a thread, the daemon panics (C131_false, C131_false_any). Proved that this is the only case (C131_exact_partial, C131_up_partial)."
  },
  {
   "property": "C132",
   "status": "proved",
   "theorems": [
    "Shpool.EndToEnd.C132_fair",
    "Shpool.EndToEnd.C132_shows",
    "Shpool.EndToEnd.C132_shows_first",
    "Shpool.EndToEnd.C132_shows_written",
    "Shpool.EndToEnd.C132_complete",
    "Shpool.EndToEnd.C132_exit",
    "Shpool.EndToEnd.C132_arrives"
   ],
   "note": "C132_fair: in every fair execution what the daemon has sent to a client is shown, unless the client's output thread has ended or one of its threads has failed. Needs that the frames fit the reader's buffer (they do: C01, C24)."
  },
  {
   "property": "C133",
   "status": "proved",
   "theorems": [
    "Shpool.EndToEnd.C133_fair",
    "Shpool.EndToEnd.C133_transparent",
    "Shpool.EndToEnd.C133_absent",
    "Shpool.EndToEnd.C133_only_typed",
    "Shpool.EndToEnd.C133_no_detach",
    "Shpool.EndToEnd.C133_no_detach_absent",
    "Shpool.EndToEnd.C133_arrives",
    "Shpool.EndToEnd.C133_delivered"
   ],
   "note": "C133_fair: in every execution in which the daemon's reader gets turns, all that the client has sent by some time is written to the shell, except a rest that is a proper beginning of a key binding."
  },
  {
   "property": "C134",
   "status": "partial",
   "theorems": [
    "Shpool.LetGo.C134_false",
    "Shpool.LetGo.C134_session_partial",
    "Shpool.LetGo.C134_no_terminal_partial",
    "Shpool.LetGo.C134_std_partial",
    "Shpool.LetGo.C134_rest_partial",
    "Shpool.LetGo.C134_comes_up",
    "Shpool.LetGo.C134_repaired"
   ],
   "note": "False for descriptors above 2 that are not marked close-on-exec: they are inherited by the launched command and never closed (C134_false, exactly those: C134_rest_partial). Session, group, terminal, directory and the standard descriptors are proved. C134_repaired: if the client marked its descriptors above 2 close-on-exec, the daemon would have nothing of what launched it."
  },
  {
   "property": "C135",
   "status": "proved",
   "theorems": [
    "Shpool.Server.C135_own_name",
    "Shpool.Server.C135_table",
    "Shpool.Server.C135_name_stays",
    "Shpool.Server.C135_separate",
    "Shpool.Server.C135_stretch",
    "Shpool.Server.C135_depends",
    "Shpool.Server.C135_replies"
   ],
   "note": "Proved as stated. C135_own_name: A client is only ever connected to a session created under the name it asked for, from selecting the session to the end. C135_table: The table shows every session under the name it was created with. C135_name_stays: A session keeps the name it was created with for ever. C135_separate: A step that is not about a name changes nothing of the sessions with that name. C135_stretch: Along a whole stretch of history none of whose steps is about a name, nothing of the sessions with that name changes, and the list shows the same line for it. C135_depends: What a step about one name does depends on nothing but the sessions with that name and the requests for it: if two histories agree about them, it is possible after the one if it is after the other (by a client that has not asked for anything before) and they agree afterwards. C135_replies: So do the replies to kill and detach requests about that name."
  },
  {
   "property": "C136",
   "status": "partial",
   "theorems": [
    "Shpool.S2C.C136_false",
    "Shpool.S2C.C136_exact_partial",
    "Shpool.S2C.C136_jiggle_partial",
    "Shpool.S2C.C136_soon_partial"
   ],
   "note": "False if the terminal had just one row and one column more than that of the client that comes back, and this one is enlarged to that size within 50 ms (C136_false). Proved that this is the only case (C136_exact_partial), when and how often the programs are told (C136_jiggle_partial, C136_soon_partial)."
  },
  {
   "property": "C137",
   "status": "partial",
   "theorems": [
    "Shpool.Server.C137_exact",
    "Shpool.Server.C137_false",
    "Shpool.Server.C137_false_race",
    "Shpool.Server.C137_false_thread",
    "Shpool.Server.C137_false_name",
    "Shpool.Server.C137_for_ever",
    "Shpool.Server.C137_reached_partial",
    "Shpool.Server.C137_kill"
   ],
   "note": "False: the ttl reaper removes a session whose shell it cannot kill (C137_false), and shells are lost when attach requests race, when a shell-to-client thread ends before its shell, and when a request removes a session by its name (C137_false_race, _thread, _name); lost shells stay lost (C137_for_ever). Proved for all other histories, and for kill always. C137_exact: a running shell is unreachable if and only if one of these steps has happened to it."
  },
  {
   "property": "C138",
   "status": "proved",
   "theorems": [
    "Shpool.PagerRun.C138_output",
    "Shpool.PagerRun.C138_input",
    "Shpool.PagerRun.C138_hangup"
   ],
   "note": "Proved as stated. C138_output: what the pager prints reaches the client, in order and unaltered: it is what the client was sent, then at most one piece that is being written to the client, or could not be written to it, then what was not read yet. C138_input: what the user types reaches the pager, in order and unaltered: it is what the pager has read, what waits for it in its terminal, then at most one piece that is being written to the terminal, or could not be because the pager was gone, then what was not read yet. C138_hangup: the client is told that it hung up only if it did."
  },
  {
   "property": "C139",
   "status": "partial",
   "theorems": [
    "Shpool.PagerRun.C139_false",
    "Shpool.PagerRun.C139_false_input",
    "Shpool.PagerRun.C139_not_shown_partial",
    "Shpool.PagerRun.C139_shown_partial",
    "Shpool.PagerRun.C139_left_partial",
    "Shpool.PagerRun.C139_repaired"
   ],
   "note": "False: if the thread that waits for the pager tells of its exit before the pager's last output has been read, that output (which gives back the screen) is not shown (C139_false); input found ready together with the last output goes to the pager that has exited (C139_false_input). Proved: what is not shown is exactly what was not read (C139_not_shown_partial); nothing if the end is noticed by the end of the terminal (C139_shown_partial); what is typed when the client is not read any more is left (C139_left_partial). C139_repaired: if the display ended only at the end of the pager's terminal, everything printed would have been shown."
  },
  {
   "property": "C140",
   "status": "partial",
   "theorems": [
    "Shpool.PagerRun.C140_exact",
    "Shpool.PagerRun.C140_false",
    "Shpool.PagerRun.C140_gone",
    "Shpool.PagerRun.C140_escalates",
    "Shpool.PagerRun.C140_spared",
    "Shpool.PagerRun.C140_own_partial"
   ],
   "note": "False: after the last wait (640 ms) there is no look whether the pager has exited, so SIGKILL can go to a process that was given its number (C140_false). Proved: the pager has ended (C140_gone), the order and time of the signals (C140_escalates), no signal to a pager known to have exited (C140_spared), and all signals hit the pager as long as its number is not reused (C140_own_partial). C140_exact says exactly when another process is sent SIGTERM or SIGKILL."
  },
  {
   "property": "C141",
   "status": "proved",
   "theorems": [
    "Shpool.PagerRun.C141_fair_ending",
    "Shpool.PagerRun.C141_fair_exit",
    "Shpool.PagerRun.C141_fair_gone",
    "Shpool.PagerRun.C141_stays"
   ],
   "note": "Proved as stated. C141_fair_ending: once `display` is ending, for whatever reason, it returns. C141_fair_exit: once the pager has exited the attach goes on, whatever the client types. C141_fair_gone: once the client has gone the request goes on (and finds that it has), and the pager is gone then, even if it ignores SIGTERM. C141_stays: the message stays as long as the pager runs, the client is there and nothing fails."
  },
  {
   "property": "C142",
   "status": "proved",
   "theorems": [
    "Shpool.ShellStart.C142_bounded",
    "Shpool.ShellStart.C142_ends",
    "Shpool.ShellStart.C142_silent",
    "Shpool.ShellStart.C142_sound",
    "Shpool.ShellStart.C142_takes",
    "Shpool.ShellStart.C142_prompt",
    "Shpool.ShellStart.C142_shell_ended"
   ],
   "note": "Proved as stated. C142_bounded: whatever the shell prints, or does not print, the wait is over 90.5 seconds after it began, but for the time that the last round takes besides `poll`. C142_ends: it does end: when 90 seconds have passed it does not go on. C142_silent: a shell that prints nothing, and does not end, is waited for exactly so long. C142_sound: the wait ends well only if the shell has printed the marker. C142_takes: what the shell prints meanwhile is taken by the wait; it stops at the piece with the marker and leaves the rest for the user. C142_prompt: once the shell has printed the marker (not directly after a beginning of the marker) within 90 seconds the wait is over in the same round: it is not waited any longer. C142_shell_ended: a shell that ends (its terminal is closed or cannot be read any more) is not waited for."
  },
  {
   "property": "C143",
   "status": "partial",
   "theorems": [
    "Shpool.Conns.C143_false",
    "Shpool.Conns.C143_false_for_ever",
    "Shpool.Conns.C143_busy",
    "Shpool.Conns.C143_at_once",
    "Shpool.Conns.C143_unsent",
    "Shpool.Conns.C143_attended_partial",
    "Shpool.Conns.C143_closed_partial"
   ],
   "note": "False: a request that fails after the session was chosen (the link to the ssh agent's socket, the file with the session's variables, the pager) leaves the connection in the session, open, and its client waits (C143_false), even after the shell has exited, until somebody attaches to the session or kills it or its time is up (C143_false_for_ever). Proved: a client that is refused as busy is always let go (C143_busy); as long as no request is cut short every open connection is attended by a request that is not over (C143_attended_partial), and if attach requests for one name do not race either, the connection of a request that is over is closed (C143_closed_partial). A client that is told to leave by a thread that does its work is let go in that very step (C143_at_once); when the thread does not take the message, the request closes the connection itself (C143_unsent)."
  },
  {
   "property": "C144",
   "status": "proved",
   "theorems": [
    "Shpool.Conns.C144_kept",
    "Shpool.Conns.C144_gone",
    "Shpool.Conns.C144_bound"
   ],
   "note": "In every history, also with requests cut short and racing: who keeps an open connection (C144_kept), a session that is gone keeps none (C144_gone), at most two per session (C144_bound)."
  },
  {
   "property": "C145",
   "status": "partial",
   "theorems": [
    "Shpool.Locks.C145_circle_partial",
    "Shpool.Locks.C145_false",
    "Shpool.Locks.C145_false_for_ever",
    "Shpool.Locks.C145_apart",
    "Shpool.Locks.C145_rest_partial",
    "Shpool.Locks.C145_rest",
    "Shpool.Locks.C145_repaired"
   ],
   "note": "False (C145_false, C145_false_for_ever): an attach that has just made a session locks the table and then waits for the session; if somebody else has attached to it in between and leaves, that one waits for the table. That is the only place: all programs take locks in one order but for it (C145_circle_partial, C145_rest_partial). Fully true when no attach that makes a session finds one of another attach afterwards, with any number of other requests about any sessions (C145_apart, C145_rest). Missing from the partial ones: that place. With a try for the session at that place instead of waiting for it, the claim would hold in full (C145_repaired)."
  },
  {
   "property": "C146",
   "status": "proved",
   "theorems": [
    "Shpool.Locks.C146_rests",
    "Shpool.Locks.C146_done",
    "Shpool.Locks.C146_attach"
   ],
   "note": "Strong fairness per thread (a thread that can go on again and again does so at some time), induction over the order of the locks; work between locks is assumed to end, idling is not. The condition (Apart) is stated in the property; without it C145_false_for_ever applies."
  },
  {
   "property": "C147",
   "status": "partial",
   "theorems": [
    "Shpool.ShellPrompt.C147_bash_exact",
    "Shpool.ShellPrompt.C147_script_bash",
    "Shpool.ShellPrompt.C147_script_zsh",
    "Shpool.ShellPrompt.C147_script_fish",
    "Shpool.ShellPrompt.C147_bash_no_hooks_partial",
    "Shpool.ShellPrompt.C147_bash_hook_partial",
    "Shpool.ShellPrompt.C147_zsh_partial",
    "Shpool.ShellPrompt.C147_zsh_prefix_partial",
    "Shpool.ShellPrompt.C147_fish_partial",
    "Shpool.ShellPrompt.C147_false_bash_status",
    "Shpool.ShellPrompt.C147_false_bash_list",
    "Shpool.ShellPrompt.C147_false_bash_set",
    "Shpool.ShellPrompt.C147_false_zsh_precmd",
    "Shpool.ShellPrompt.C147_false_zsh_set",
    "Shpool.ShellPrompt.C147_false_fish_status",
    "Shpool.ShellPrompt.C147_false"
   ],
   "note": "False for each shell. bash with PROMPT_COMMAND: hooks are told status 0 (C147_false_bash_status), elements of PROMPT_COMMAND after the first are run once more after the prefix was added and can wipe it out (C147_false_bash_list), a prompt set by a command is gone at the next prompt (C147_false_bash_set); zsh: likewise with or without hooks (C147_false_zsh_set), and a prompt set by the function precmd is undone (C147_false_zsh_precmd); fish: the user's prompt is told status 0 (C147_false_fish_status). Proved: exact for bash without hooks, bash with one hook that does not look at the status, zsh with any hooks in precmd_functions, fish with a prompt that does not look at the status, as long as commands leave the prompt alone; in zsh the prefix is there whatever is set (C147_zsh_prefix_partial). The programs whose meaning is given are those in the text (C147_script_*). The meaning of the few forms of shell commands used is trusted. C147_bash_exact: exactly which prompts bash shows with any number of hooks: all are run, told status 0 first, the prefix is put there, and all but the first are run again."
  },
  {
   "property": "C148",
   "status": "partial",
   "theorems": [
    "Shpool.Logs.C148_own_file_partial",
    "Shpool.Logs.C148_emptied_partial",
    "Shpool.Logs.C148_false",
    "Shpool.Logs.C148_false_overwritten",
    "Shpool.Logs.C148_repaired"
   ],
   "note": "False: the file is made with File::create, which empties it, and is not opened for appending. A client given the log file of a running daemon, or a second daemon launched at the same time with the same daemonized-shpool.log (before it finds that the socket is taken), empties it (C148_false, C148_emptied_partial: the first one's next message then comes after a hole of zero bytes), and two writers write over each other (C148_false_overwritten). Proved: while no other process opens the file it holds exactly the messages of its owner. Opened for appending and not emptied, the file would keep all messages of all its writers, whole and in order (C148_repaired)."
  },
  {
   "property": "C149",
   "status": "proved",
   "theorems": [
    "Shpool.Logs.C149_stderr",
    "Shpool.Logs.C149_hidden",
    "Shpool.Logs.C149_set",
    "Shpool.Logs.C149_monotone"
   ],
   "note": "Proved as stated. C149_stderr: A daemon without log file writes to its standard error just the messages of the levels seen with the level last asked for: by a request since it started, else by the count of `-v` it was started with. A client without log file writes none of its messages anywhere, so none gets into the user's terminal. This holds however many other processes run, with or without log files. C149_hidden: A message that the level asked for hides leaves no trace, in whatever state things are: not in any file, not on any standard error, not in where later messages go. C149_set: Whatever daemon is asked, and whatever its level was, it then has the level asked for; no other process is touched. C149_monotone: More is seen with a more talkative level: what a level shows is shown by each level after it."
  },
  {
   "property": "C150",
   "status": "partial",
   "theorems": [
    "Shpool.Noise.C150_typed_exact",
    "Shpool.Noise.C150_prologue",
    "Shpool.Noise.C150_says_partial",
    "Shpool.Noise.C150_typed_partial",
    "Shpool.Noise.C150_startup_partial",
    "Shpool.Noise.C150_hidden_partial",
    "Shpool.Noise.C150_default_partial",
    "Shpool.Noise.C150_false"
   ],
   "note": "Not proved as stated, and false (C150_false): the session name is typed as part of the prompt prefix, and SHPOOL_PROMPT_SETUP_SENTINEL is an accepted name; in such a session the hiding ends at the echo of the prefix and the user sees the rest of the script. Proved (C150_hidden_partial, C150_default_partial): if the marker is in none of prefix, name, start command and path of the binary, and these have no control characters but line ends, exactly what comes after the marker line is shown, provided the shell's own output meanwhile does not have the marker in it or end in a character of the marker. C150_startup_partial: the echo of the first command is not taken for its output. C150_says_partial needs a path without characters special to a shell (see C82). The echo (ECHO, ECHOCTL, ONLCR) is that of the kernel; line editors that redraw the line are not modelled. C150_typed_exact: the marker is in what is typed if and only if the user put it there (prefix with the name in it, start command, path of the binary)."
  },
  {
   "property": "C151",
   "status": "partial",
   "theorems": [
    "Shpool.Background.C151_false",
    "Shpool.Background.C151_alone_partial",
    "Shpool.Background.C151_left",
    "Shpool.Background.C151_exact",
    "Shpool.Background.C151_given_back_partial",
    "Shpool.Background.C151_which"
   ],
   "note": "Not proved as stated, and false (C151_false): the client closes its attachment and then asks for the session to be detached by its name; whoever attaches in between is disconnected by that, although nobody used --force. Proved (C151_alone_partial): if no other request for the name is under way from the moment the background request is taken up, nobody loses an attachment; (C151_left, without conditions): the detach request leaves list, shells, owners and sessions of other names as they are and the named session without client; (C151_given_back_partial): under fairness the daemon's thread ends and gives the session back, if requests creating a session do not race. Exactly: the request takes another's attachment away iff that is served by the session that has the name now (C151_exact)."
  },
  {
   "property": "C152",
   "status": "partial",
   "theorems": [
    "Shpool.Force.C152_false",
    "Shpool.Force.C152_tries",
    "Shpool.Force.C152_same_partial",
    "Shpool.Force.C152_bound",
    "Shpool.Force.C152_free",
    "Shpool.Force.C152_exact",
    "Shpool.Force.C152_which"
   ],
   "note": "Not proved as stated, and false (C152_false): the session is detached once only; whoever attaches before the next try keeps the forced client out, and after its tries it reports a terminal that could not be detached, although that one has long gone. Proved: a client that gives up has had 22 requests refused (C152_tries); a request for a session nobody has is not refused (C152_free); if nobody else asks for the name since the first refusal, every later refusal is because the same request still has the same session (C152_same_partial). Exactly: a request is refused iff some request has the session of that name then, and that is one only (C152_exact). A forced client makes at most 22 requests and does not try for ever (C152_bound)."
  },
  {
   "property": "C153",
   "status": "partial",
   "theorems": [
    "Shpool.Listing.C153_each",
    "Shpool.Listing.C153_fixed",
    "Shpool.Listing.C153_between",
    "Shpool.Listing.C153_exact_partial",
    "Shpool.Listing.C153_one_leaves_partial",
    "Shpool.Listing.C153_false",
    "Shpool.Listing.C153_false_ever"
   ],
   "note": "Not proved as stated, and false (C153_false): the table is locked during the request but the sessions are not; if two clients are leaving, the list can tell of the one that left first that it is attached and of the other that it is not (C153_false_ever: this was never the case). Proved: everything but the status is right at every moment of the request (C153_fixed), each line is right at some moment (C153_each), a line that says attached was right at the beginning and one that says disconnected is right at the end (C153_between); the whole is of one moment exactly if any two lines are (C153_exact_partial), in particular if at most one client leaves meanwhile (C153_one_leaves_partial)."
  },
  {
   "property": "C154",
   "status": "partial",
   "theorems": [
    "Shpool.Sizes.C154_false",
    "Shpool.Sizes.C154_false_size",
    "Shpool.Sizes.C154_false_former",
    "Shpool.Sizes.C154_false_switch",
    "Shpool.Sizes.C154_who_partial",
    "Shpool.Sizes.C154_exact",
    "Shpool.Sizes.C154_alone_partial",
    "Shpool.Sizes.C154_follows_partial"
   ],
   "note": "Not proved as stated, and false (C154_false, C154_false_size): the thread that handles SIGWINCH is started before the attach request and names a session in its request; the daemon does not ask who sends it. A client that is refused as busy or waits to take over (--force), one that has just been detached (C154_false_former) and one that follows its template to a session somebody has (C154_false_switch) resize the session of the attached client, which keeps the wrong size until its own terminal is resized. Proved: exactly who can (C154_who_partial: a client aimed at this session whose terminal was resized since it was started), so nobody else if there is no other such client (C154_alone_partial); and if all resize requests come from the client that has the session and none fails, every session has the size of its client's terminal whenever no signal is being handled (C154_follows_partial). Exactly: resizing the terminal of a client can resize a session somebody has iff that client runs and was started for it or is on its way to it (C154_exact)."
  },
  {
   "property": "C155",
   "status": "partial",
   "theorems": [
    "Shpool.PagerSize.C155_false",
    "Shpool.PagerSize.C155_false_acknowledged",
    "Shpool.PagerSize.C155_false_later",
    "Shpool.PagerSize.C155_false_shown",
    "Shpool.PagerSize.C155_partial",
    "Shpool.PagerSize.C155_runs_partial",
    "Shpool.PagerSize.C155_reuse_partial",
    "Shpool.PagerSize.C155_order",
    "Shpool.PagerSize.C155_order_timeout",
    "Shpool.PagerSize.C155_exact"
   ],
   "note": "False: the size listener has the bare number of the descriptor. The number is closed by the destructor of each of the two handles, that of the thread that waits for the pager to exit (even while the pager is still shown, C155_false_shown) and that of display, which is dropped before the slot is freed; a size sent at that moment (or, if the request gave up waiting, at any later time) is set on whatever has been given the number since, e.g. the terminal of another session (C155_false, C155_false_acknowledged, C155_false_later). Proved: it holds until the terminal is closed (C155_partial), in particular as long as the pager runs and is shown (C155_runs_partial); nothing else is touched if nothing is opened after that (C155_reuse_partial); with a process number instead of a clone and the other order of declaration it would hold if no request gives up waiting (C155_order; C155_order_timeout shows that this is needed). That the destructor of a clone closes the descriptor is said in a comment of server.rs (1028-1037); the destructor is in the crate shpool_pty. Exactly: C155_exact gives the histories in which a size is set on something else: that was opened under the number after the terminal was closed, and still had it."
  },
  {
   "property": "C156",
   "status": "partial",
   "theorems": [
    "Shpool.PagerSize.C156_exact",
    "Shpool.PagerSize.C156_stuck_forever",
    "Shpool.PagerSize.C156_false",
    "Shpool.PagerSize.C156_partial",
    "Shpool.PagerSize.C156_own"
   ],
   "note": "False: if a request gives up waiting for the acknowledgement the listener waits for ever to deliver it, and no size is taken any more while this pager is shown (C156_false, C156_stuck_forever). Proved without such a request, while the pager runs (C156_partial); an acknowledgement is always for the request that gets it (C156_own). C156_exact: a size can be set if and only if no request has ever given up waiting for its acknowledgement."
  },
  {
   "property": "C157",
   "status": "partial",
   "theorems": [
    "Shpool.PagerFd.C157_exact",
    "Shpool.PagerFd.C157_false",
    "Shpool.PagerFd.C157_false_write",
    "Shpool.PagerFd.C157_false_close",
    "Shpool.PagerFd.C157_false_close_monitor",
    "Shpool.PagerFd.C157_partial",
    "Shpool.PagerFd.C157_reuse_partial",
    "Shpool.PagerFd.C157_bound",
    "Shpool.PagerFd.C157_twice",
    "Shpool.PagerFd.C157_repaired"
   ],
   "note": "False: the thread that waits for the pager has a clone of the handle, whose destructor closes the descriptor (server.rs 1028-1037 avoids the same for shells) while display goes on with the bare number: it can read another file and send it to the client (C157_false), write what is typed to another file (C157_false_write), and the second destructor closes whatever has got the number in between, in either order (C157_false_close, C157_false_close_monitor); there always is a second closing (C157_twice). Proved: it holds until the first closing (C157_partial) and afterwards if nothing is opened (C157_reuse_partial); at most one read and one write go wrong (C157_bound); with the process number instead of a clone it would hold (C157_repaired). Exactly: C157_exact gives the histories in which something else is read, written to or closed: that was opened under the number after the terminal was closed, and still had it."
  },
  {
   "property": "C158",
   "status": "partial",
   "theorems": [
    "Shpool.ShellFd.C158_exact",
    "Shpool.ShellFd.C158_false",
    "Shpool.ShellFd.C158_false_size",
    "Shpool.ShellFd.C158_false_many",
    "Shpool.ShellFd.C158_partial",
    "Shpool.ShellFd.C158_reuse_partial",
    "Shpool.ShellFd.C158_bound",
    "Shpool.ShellFd.C158_ends"
   ],
   "note": "False: when a session is dropped its terminal is closed, but its thread has the bare number and looks at its channels only once per turn; a new session's terminal that gets the number can be read (its output is lost) or resized (C158_false, C158_false_size), any number of times as long as some request has a reference to the control channels (C158_false_many). Proved: it holds until the session is dropped (C158_partial) and afterwards if nothing is opened (C158_reuse_partial); without such a request at most one read and one resize go wrong (C158_bound) and the thread ends (C158_ends). Exactly: C158_exact gives the histories in which something else is read or resized: that was opened under the number after the terminal was closed, and still had it."
  },
  {
   "property": "C159",
   "status": "partial",
   "theorems": [
    "Shpool.Exhaust.C159_work_partial",
    "Shpool.Exhaust.C159_rests_partial",
    "Shpool.Exhaust.C159_for_ever",
    "Shpool.Exhaust.C159_exact_partial",
    "Shpool.Exhaust.C159_false",
    "Shpool.Exhaust.C159_false_events",
    "Shpool.Exhaust.C159_none_lost",
    "Shpool.Exhaust.C159_fair"
   ],
   "note": "False: neither loop does anything about a failed accept but write to the log, and accept(2) fails at once if there is no free number, even if nobody waits (C159_false; the events sink with a waiting subscriber: C159_false_events); both go round, and write to the log, without end (C159_for_ever). Proved exactly when they come to rest (C159_exact_partial) with a bound (C159_rests_partial), that all the work beyond it is failed accepts (C159_work_partial), that nobody is lost and the order is kept (C159_none_lost), and that all who wait are accepted once numbers are free (C159_fair)."
  },
  {
   "property": "C160",
   "status": "partial",
   "theorems": [
    "Shpool.Reaper.C160_false",
    "Shpool.Reaper.C160_false_heap",
    "Shpool.Reaper.C160_names_exact",
    "Shpool.Reaper.C160_names_for_ever",
    "Shpool.Reaper.C160_heap_partial",
    "Shpool.Reaper.C160_mail",
    "Shpool.Reaper.C160_mail_full",
    "Shpool.Reaper.C160_fair_partial"
   ],
   "note": "False: the number of each name ever registered is kept for good (C160_false, C160_names_for_ever), and deadlines of sessions that are gone stay until they have passed, any number of them (C160_false_heap). Proved exactly what is kept of names (C160_names_exact); that a reaper with nothing to do keeps only deadlines that have not passed, each registration once (C160_heap_partial); that in every fair execution every deadline is forgotten (C160_fair_partial); and that at most ten registrations are under way (C160_mail, C160_mail_full)."
  },
  {
   "property": "C161",
   "status": "partial",
   "theorems": [
    "Shpool.Switch.C161_exact",
    "Shpool.Switch.C161_false",
    "Shpool.Switch.C161_false_interrupt",
    "Shpool.Switch.C161_false_erase",
    "Shpool.Switch.C161_plain",
    "Shpool.Switch.C161_plain_partial",
    "Shpool.Switch.C161_lines_partial",
    "Shpool.Switch.C161_pipe",
    "Shpool.Switch.C161_order",
    "Shpool.Switch.C161_one_more"
   ],
   "note": "False: each attach sets the terminal to raw mode and gives its settings back at its end, so between two sessions they are the former ones: return becomes newline (C161_false), the interrupt key ends the client (C161_false_interrupt), backspace edits (C161_false_erase). Proved for plain characters, whatever the settings (C161_plain_partial; which these usually are: C161_plain), and always if the client is not on a terminal (C161_pipe); the order is kept (C161_order), and after the hint at most one more piece goes to the old session (C161_one_more). Exactly, with the usual settings: it holds iff none of ^C, ^\\, ^Z, return, ^D, backspace, ^U is typed between two sessions (C161_exact)."
  },
  {
   "property": "C162",
   "status": "partial",
   "theorems": [
    "Shpool.Bidi.C162_false",
    "Shpool.Bidi.C162_partial",
    "Shpool.Bidi.C162_end_only",
    "Shpool.Bidi.C162_next",
    "Shpool.Bidi.C162_exact",
    "Shpool.Bidi.C162_repaired"
   ],
   "note": "False: a heartbeat that finds the client gone ends the request, and what was not read by then is thrown away (C162_false). Proved if no heartbeat falls between (C162_partial); what is thrown away is always an end of what was sent (C162_end_only), and never the piece the reader was waiting for (C162_next). C162_repaired: a daemon whose reader reads to the end of the connection loses nothing. Exactly: something is missing iff the reader, having written a piece, found the request ending while there was more to read (C162_exact)."
  },
  {
   "property": "C163",
   "status": "partial",
   "theorems": [
    "Shpool.Intr.C163_cause",
    "Shpool.Intr.C163_partial",
    "Shpool.Intr.C163_false_exit",
    "Shpool.Intr.C163_false",
    "Shpool.Intr.C163_false_posix",
    "Shpool.Intr.C163_status",
    "Shpool.Intr.C163_repaired",
    "Shpool.Intr.C163_told",
    "Shpool.Intr.C163_told_fair"
   ],
   "note": "False: poll returns EINTR when its thread takes the signal of a resize, and the client takes that for an error of its input and exits with status 1. Linux gives the signal to another thread than the main one when the main one is still in the handler for the last resize, so two resizes in quick succession can end the attach (C163_false, C163_false_exit); with what POSIX promises, one can (C163_false_posix). Proved if no resize comes while the main thread is in the handler (C163_partial); nothing else than such an interruption is the cause (C163_cause); the status is then 1 (C163_status). No resize is forgotten whichever thread is interrupted (C163_told, C163_told_fair). C163_repaired: a client that calls poll again stays attached always."
  },
  {
   "property": "C164",
   "status": "partial",
   "theorems": [
    "Shpool.Nest.C164_in_order",
    "Shpool.Nest.C164_comes_out",
    "Shpool.Nest.C164_exact",
    "Shpool.Nest.C164_partial",
    "Shpool.Nest.C164_false",
    "Shpool.Nest.C164_false_unforced",
    "Shpool.Nest.C164_own_not_enough",
    "Shpool.Nest.C164_for_ever",
    "Shpool.Nest.C164_repaired",
    "Shpool.Nest.C164_repaired_refuses_no_more"
   ],
   "note": "False: nothing asks where a client runs. `shpool attach -f` with the name of the session it is run in makes the session its own client, and two detached sessions can come to show each other without force (C164_false_unforced). C164_exact: an attach does it exactly if following the clients from where it is made comes to the session. C164_for_ever: once something is printed in such a circle, it is relayed without end and never comes out. C164_partial: holds if no attach is forced and each is made where a user sits outside. Comparing with SHPOOL_SESSION_NAME would not be enough (C164_own_not_enough); a daemon that follows the clients would be (C164_repaired, C164_repaired_refuses_no_more). Where following the clients does come to a terminal, what is on its way stays in order until it is shown (C164_in_order), and can be shown by relaying alone (C164_comes_out)."
  },
  {
   "property": "C165",
   "status": "partial",
   "theorems": [
    "Shpool.Disp.C165_exact",
    "Shpool.Disp.C165_mask",
    "Shpool.Disp.C165_partial",
    "Shpool.Disp.C165_false",
    "Shpool.Disp.C165_false_each",
    "Shpool.Disp.C165_kill",
    "Shpool.Disp.C165_status",
    "Shpool.Disp.C165_false_status",
    "Shpool.Disp.C165_daemon",
    "Shpool.Disp.C165_nested",
    "Shpool.Disp.C165_repaired"
   ],
   "note": "False: what is ignored stays ignored over exec, and the daemon resets only SIGTERM, SIGINT, SIGQUIT (it handles them) and SIGPIPE (Rust's library does). After `nohup shpool daemon` sessions ignore SIGHUP, so that `shpool kill` has to use SIGKILL (C165_kill); with SIGCHLD ignored clients are told exit status 1 for every session (C165_status). C165_exact: exactly these signals. C165_partial: holds if whoever started the daemon ignores at most those four; no signal is ever blocked (C165_mask). C165_repaired: would hold if the child set every signal to its default."
  },
  {
   "property": "C166",
   "status": "partial",
   "theorems": [
    "Shpool.S2C.C166_exact",
    "Shpool.S2C.C166_partial",
    "Shpool.S2C.C166_later",
    "Shpool.S2C.C166_false",
    "Shpool.S2C.C166_false_lasts",
    "Shpool.S2C.C166_repaired"
   ],
   "note": "False: the picture is set up for the size in the request that creates the session, while the terminal gets the size the client has after the message of the day was shown in a pager. If it was resized meanwhile the two differ (C166_false) and stay different until the next resize or attach (C166_false_lasts). C166_exact: exactly then. C166_partial, C166_later: holds without such a resize, and from the next request on. C166_repaired: would hold if the picture were set up for the size of the first client handed over."
  },
  {
   "property": "C167",
   "status": "partial",
   "theorems": [
    "Shpool.StartCmd.C167_partial",
    "Shpool.StartCmd.C167_false",
    "Shpool.StartCmd.C167_false_others",
    "Shpool.StartCmd.C167_cause",
    "Shpool.StartCmd.C167_for_ever",
    "Shpool.StartCmd.C167_false_runs",
    "Shpool.StartCmd.C167_fair_partial",
    "Shpool.StartCmd.C167_repaired"
   ],
   "note": "False: the command that prints the marker is typed after the start command, so a start command that reads the terminal or throws away what was typed ahead swallows it (C167_false, C167_false_others), likewise the start files, and a daemon that gives up; then nothing is ever shown (C167_for_ever). While a start command runs that does not come back nothing is shown either (C167_false_runs). C167_cause: these are the only causes. C167_partial, C167_fair_partial: holds, and comes about, if start files and start command leave the input alone. C167_repaired: typing the marker's command first would make it hold for all start commands."
  },
  {
   "property": "C168",
   "status": "partial",
   "theorems": [
    "Shpool.Hangup.C168_false",
    "Shpool.Hangup.C168_partial",
    "Shpool.Hangup.C168_repaired",
    "Shpool.Hangup.C168_exact",
    "Shpool.Hangup.C168_not_before",
    "Shpool.Hangup.C168_false_for_ever",
    "Shpool.Hangup.C168_false_daemon",
    "Shpool.Hangup.C168_fair_partial"
   ],
   "note": "False unless the crate shpool_pty opens master sides close-on-exec (not known from the repository): the loop that closes descriptors in the child stops at 4, so the shell of a later session has the master sides of the terminals of the sessions there were (C168_exact), and killing one of those does not hang its terminal up (C168_false); a program that ignores hang-ups keeps all earlier sessions' terminals from being hung up, also after the daemon has ended (C168_false_daemon, C168_false_for_ever). C168_partial: holds with close-on-exec. C168_fair_partial: if no process ignores hang-ups or leaves its terminal, everything ends after the daemon has ended, whatever was inherited. C168_repaired: a loop up to the real limit would do. C168_not_before: no terminal is hung up while its session is there."
  },
  {
   "property": "C169",
   "status": "partial",
   "theorems": [
    "Shpool.SessDir.C169_false",
    "Shpool.SessDir.C169_false_start",
    "Shpool.SessDir.C169_false_former",
    "Shpool.SessDir.C169_false_agent",
    "Shpool.SessDir.C169_false_left",
    "Shpool.SessDir.C169_partial",
    "Shpool.SessDir.C169_agent",
    "Shpool.SessDir.C169_exact",
    "Shpool.SessDir.C169_repaired"
   ],
   "note": "False: the files are made after the shell has been started and waited for, so its start files and the start command find nothing or what a former session of that name left (C169_false, C169_false_start, C169_false_former); a client without an agent leaves the link to the agent of an earlier one (C169_false_agent). What a client forwarded stays in the directory when the session is gone (C169_false_left). C169_partial: right for a client that has been given the session, but for the missing agent. C169_agent: whose agent it is otherwise. C169_repaired: would hold if the files were made first and old links removed. Exactly, for a client that has been given the session: right iff it has an agent or no client of that name ever had one (C169_exact)."
  },
  {
   "property": "C170",
   "status": "partial",
   "theorems": [
    "Shpool.Reading.C170_shown",
    "Shpool.Reading.C170_lost",
    "Shpool.Reading.C170_false_for_ever",
    "Shpool.Reading.C170_false",
    "Shpool.Reading.C170_false_force",
    "Shpool.Reading.C170_disconnected",
    "Shpool.Reading.C170_partial",
    "Shpool.Reading.C170_repaired"
   ],
   "note": "False: while its user reads the message of the day in the pager a client is shown as attached, and every detach request changes nothing and is answered that nobody is attached, for ever (C170_false, C170_false_for_ever, C170_lost); a forced attach gives up (C170_false_force). Proved: the list shows what some request has (C170_shown); a detach request ends a request that streams, in every fair execution in which requests creating a session do not race (C170_partial); one for a session not shown as attached changes nothing (C170_disconnected); as stated if detach requests also reached such requests (C170_repaired). That the streaming of a client taken from the session's thread ends is one step here; see C107 for when it does not."
  },
  {
   "property": "C171",
   "status": "partial",
   "theorems": [
    "Shpool.Clock.C171_false_all",
    "Shpool.Clock.C171_false",
    "Shpool.Clock.C171_false_order",
    "Shpool.Clock.C171_exact",
    "Shpool.Clock.C171_started",
    "Shpool.Clock.C171_stays",
    "Shpool.Clock.C171_tells_partial",
    "Shpool.Clock.C171_order_exact",
    "Shpool.Clock.C171_kill"
   ],
   "note": "Not proved as stated, and false (C171_false): a session that was started, last connected or last disconnected while the clock showed a time before 1970 makes every list request fail (C171_false_all: other sessions are not listed either); and a clock that is set back makes the list tell of an attached session that its last disconnection came after its last connection (C171_false_order). Proved: the list is refused exactly in that case (C171_exact), as long as such a session is there (C171_stays; the time it was started does not change, C171_started); otherwise it tells of all sessions (C171_tells_partial); the order is right for all histories exactly if the clock never goes back by a millisecond (C171_order_exact); killing those sessions helps (C171_kill)."
  },
  {
   "property": "C172",
   "status": "partial",
   "theorems": [
    "Shpool.Message.C172_answered",
    "Shpool.Message.C172_false",
    "Shpool.Message.C172_false_replaced",
    "Shpool.Message.C172_true_partial",
    "Shpool.Message.C172_same_partial",
    "Shpool.Message.C172_others",
    "Shpool.Message.C172_statement_code",
    "Shpool.Message.C172_repaired"
   ],
   "note": "False (C172_false): NotAttached, which the protocol documents as the answer for a session without a terminal attached, is never sent; a resize or detach of such a session is answered Ok. C172_false_replaced: a resize can be answered Ok though the session now having the name kept its size. Proved for all interleavings: NotFound, Ok to a resize and Ok to a detach are only said if true at some moment of the request (C172_true_partial); if the name stands for the same session throughout and no pager is shown, the size asked for is in force when Ok is said (C172_same_partial); only sessions that had the name are touched (C172_others). Over time: in every strongly fair execution every session message is answered or its request ends (C172_answered). It would hold if the request looked whether the session has a client when it looks the name up (C172_repaired)."
  },
  {
   "property": "C173",
   "status": "partial",
   "theorems": [
    "Shpool.BusClose.C173_closed",
    "Shpool.BusClose.C173_publish",
    "Shpool.BusClose.C173_missing",
    "Shpool.BusClose.C173_passed_on",
    "Shpool.BusClose.C173_false_delivery",
    "Shpool.BusClose.C173_false_for_ever",
    "Shpool.BusClose.C173_false",
    "Shpool.BusClose.C173_exact",
    "Shpool.BusClose.C173_ends_partial",
    "Shpool.BusClose.C173_unheard",
    "Shpool.BusClose.C173_statement_code",
    "Shpool.BusClose.C173_repaired"
   ],
   "note": "False (C173_false, C173_false_for_ever): the thread looks at the shutdown pipe only when it has found the channel empty, so the owner waits for ever while others publish fast enough; and events published before the bus is let go may not be broadcast, as the shutdown pipe is looked at first (C173_false_delivery). Proved: the owner is through exactly if the thread does not pass on events for ever (C173_exact), so always if nobody publishes any more, as when the start of the daemon fails (C173_ends_partial); then nobody is connected, nobody can connect and the socket file is gone unless it could not be removed (C173_closed); publishers never wait and the loss is logged once (C173_publish); what a subscriber misses is exactly what had not been taken from the channel (C173_missing); a failed write to the shutdown pipe leaves the owner waiting as long as anybody has the bus (C173_unheard). Not lost is what is published by the time the thread passes on events (C173_passed_on). Looking at the shutdown pipe before each event is taken would let the owner through always (C173_repaired)."
  }
 ]
}