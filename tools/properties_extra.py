p("C71", "Only chosen variables leave the client",
  "The attach request carries exactly TERM, DISPLAY, LANG, SSH_AUTH_SOCK and the variables listed in forward_env that are set in the client, with the client's values; those (other than TERM and SSH_AUTH_SOCK) are set to these values in a new session unless /etc/environment sets them.",
  "all client environments and forward_env lists", "all environments", L+"attach.rs:Attach::dial_attach", D+"server.rs:Server::build_shell_env")
p("C72", "forward.env can be read back",
  "The forward.env file of a session lists the variables forwarded by the latest attach to that session, one NAME=value line each, and reading it back gives exactly those variables.",
  "all attach histories and all environments", "all values", D+"server.rs:Server::populate_session_env_file")
p("C73", "The daemon starts with well-formed configuration files",
  "If no configuration file is malformed the configuration can be loaded and watched and start-up goes on, wherever the user's configuration directory is.",
  "all environments, home directories and file contents", "all environments", L+"config.rs:Manager::new", L+"config_watcher.rs:ConfigWatcherInner::add_watch_by_command")
p("C74", "Location of the user configuration",
  "The user configuration is read from $XDG_CONFIG_HOME/shpool/config.toml, or from $HOME/.config/shpool/config.toml if that variable is not set, after the system file; an explicitly given file is the only one read.",
  "all environments", "all environments", L+"config.rs:Manager::new,Manager::config_base_dir")
p("C75", "Configuration edits do not break running sessions",
  "Changing the configuration file while sessions are running never makes the output thread of a session die.",
  "all configuration changes at all times", "any change can fall between any two steps", D+"shell.rs:SessionInner::spawn_shell_to_client", D+"show_motd.rs:DailyMessenger::dump")
p("C76", "A slow client does not wedge its session",
  "Whatever the timing of earlier requests (attach, detach, resize, heartbeat), a session whose shell runs goes back to taking requests, and every answer a requester gets is the answer to its own request.",
  "all sequences of requests and all points at which a requester gives up waiting", "needs a client that stops reading and schedules around a timeout", D+"shell.rs:SessionInner::spawn_shell_to_client,SessionInner::spawn_heartbeat,SessionInner::action_detach", D+"server.rs:Server::handle_detach,Server::dispath_session_message")
p("C77", "Signals reach only the session's own shell",
  "A signal sent by shpool on behalf of a session (kill, or the end of an attach) only ever reaches the shell process of that session, never another process.",
  "all histories of shells starting, exiting, being reaped and of other processes being started", "process numbers are reused unpredictably", D+"shell.rs:Session::kill", D+"server.rs:Server::handle_kill")
p("C78", "Session names are shown literally",
  "For every session name the daemon accepts, the prompt shows the name as it is: no character of the name is interpreted by the shell.",
  "all session names accepted by the daemon", "all strings", D+"shell_inject.rs:maybe_setup", D+"server.rs:Server::handle_attach")
p("C79", "A slow daemon is found",
  "A client that starts the daemon itself finds it if the daemon begins to answer before the client's waiting time is over.",
  "all start-up times", "all delays", L+"daemonize.rs:maybe_launch_daemon")
p("C80", "The message of the day never prevents an attach",
  "Deciding whether the message of the day is due never fails, whatever the system clock does.",
  "all sequences of clock readings", "needs clock steps", D+"show_motd.rs:DailyMessenger", D+"show_motd.rs:Debouncer::should_fire")
p("C81", "Hidden output is always uncovered",
  "A session that hides the shell's output until the prompt has been set up has told the shell to print the marker that ends the hiding.",
  "all requests, configurations and outcomes of the shell's start", "needs a shell that starts too slowly", D+"shell_inject.rs:maybe_setup", D+"server.rs:Server::spawn_subshell")
p("C82", "The marker command runs the daemon's binary",
  "Wherever the binary is installed, the injected command runs exactly that binary with the argument daemon, also after the binary was replaced on disk.",
  "all installation paths", "all strings", D+"shell_inject.rs:maybe_setup", L+"exe.rs:current")
p("C83", "Shells inherit only the standard descriptors",
  "A shell or pager started by the daemon has no file descriptor of the daemon open but the three standard ones.",
  "all sets of descriptors the daemon may have open", "depends on what happens to be open", D+"server.rs:Server::spawn_subshell", D+"pager.rs:Pager::display")
p("C84", "Clients starting together do not disturb each other",
  "A client that looks for the daemon, and starts one if there is none, is never turned away because of what other clients or daemons do at the same time, also after a daemon died without cleaning up.",
  "all interleavings of any number of clients and daemons, with crashes", "needs exact schedules around a crash", L+"daemonize.rs:maybe_launch_daemon", D+"mod.rs:run")
p("C85", "A running daemon keeps its files",
  "As long as a daemon serves, its control socket, its events socket and its pid file stay in place, whatever other daemons are started on the same socket.",
  "all interleavings of any number of clients and daemons", "needs several daemons and exact schedules", D+"mod.rs:run", D+"events.rs:EventBus::start,ListenerGuard", L+"daemonize.rs:daemonize,PidFileGuard", D+"signals.rs:Handler")
p("C86", "Instances on different sockets are separate",
  "Two instances started with different control sockets share no file.",
  "all pairs of socket paths", "all pairs of paths", L+"lib.rs:run", D+"events.rs:socket_path", D+"mod.rs:run", L+"daemonize.rs:maybe_launch_daemon")
p("C87", "Shells have the user's umask",
  "The shells of a daemon have the umask with which the daemon was started.",
  "all umasks and ways to start the daemon", "depends on how the daemon was started", L+"daemonize.rs:daemonize", D+"server.rs:Server::spawn_subshell", D+"mod.rs:run")
p("C88", "The terminal is given back as it was",
  "While attached, a client started on a terminal has it in raw mode (and nothing else changed); when the client ends, for whatever reason and after any number of switches between sessions, the terminal has exactly the settings it had before. If one of its standard descriptors is not a terminal the settings are not touched.",
  "all terminal settings, all ways an attach can end, all sequences of switches", "ends by panic, stuck thread or signal", L+"tty.rs:set_attach_flags,AttachFlagsGuard", L+"protocol.rs:Client::pipe_bytes", L+"attach.rs:Attach::run")
p("C89", "The session has the size of the terminal",
  "When no resize is being handled, the session a client is attached to has the size of the client's terminal, whenever the terminal was resized; no other session's size is changed.",
  "all interleavings of resizes, attaches, switches and the actions of other clients", "needs a resize at an exact moment", L+"attach.rs:SignalHandler,Attach::dial_attach", D+"server.rs:Server::dispath_session_message")
p("C90", "The exit status of attach tells what happened",
  "shpool attach ends with status zero only if the client was attached to the session asked for; if the shell exits while attached the status is the shell's; after an error it is 1.",
  "all sequences of replies, switches and ways the attach can end", "all histories", L+"attach.rs:Attach::run,Attach::attach_resolved", L+"protocol.rs:Client::pipe_bytes", L+"lib.rs:run")
p("C91", "A program can follow the daemon by its events",
  "A program that lists the sessions after each event has a list that is right whenever the daemon is not in the middle of serving a request.",
  "all interleavings of requests, shells, clients and the reaper", "needs the list to be asked for at an exact moment", D+"server.rs:Server::handle_attach,Server::select_shell_desc,Server::handle_list,Server::handle_kill", D+"events.rs:EventBus::publish")
p("C92", "An attached client is connected",
  "A client that is told it is attached to a session whose shell runs is connected to that shell.",
  "all histories, with internal threads that fail at any time", "needs a thread to fail at an exact moment", D+"server.rs:Server::select_shell_desc,Server::handle_attach")
p("C93", "Every accepted ttl is honoured",
  "If the attach command accepts a ttl, the new session is created and is to end exactly that long after its start.",
  "all ttl strings and all times", "all strings", L+"attach.rs:run", L+"duration.rs:parse", D+"server.rs:Server::spawn_subshell")
p("C94", "The shell's exit status reaches the client",
  "When the shell exits the attached client is told the shell's exit code; when it was ended by a signal, or could not be waited for, it is told 1.",
  "all exit codes, signals and ways the frame with the status is cut into reads", "all segmentations", D+"server.rs:Server::spawn_subshell", D+"shell.rs:SessionInner::spawn_shell_to_client", L+"protocol.rs:Client::pipe_bytes")
p("C95", "The right command is run",
  "A new session without a command runs the configured shell, or else the user's, as a login shell, with start-up files switched off if the configuration says so; with a command it runs exactly the words of that command. It starts in the directory asked for, or else at home.",
  "all shells, commands, configurations and directories", "all strings", D+"server.rs:Server::spawn_subshell")
p("C96", "SHELL names the shell that runs",
  "In a session without a command, unless the user sets the variable, SHELL is the path of the shell that runs.",
  "all configurations, environments and users", "all configurations", D+"server.rs:Server::spawn_subshell,Server::build_shell_env")
p("C97", "A failed start leaves no shell behind",
  "If a session cannot be created, no shell was started for it; if it is created, exactly the command described in C95 was started.",
  "all requests and all ways the system can fail", "needs failing system calls", D+"server.rs:Server::spawn_subshell")
p("C98", "The terminal database is that of the shell's terminal type",
  "The terminal database the daemon uses for a session is that of the TERM the shell has.",
  "all configurations, client environments and contents of /etc/environment", "all contents of a file", D+"server.rs:Server::spawn_subshell,Server::build_shell_env")
p("C99", "Forwarded variables are private",
  "No other user can read the variables forwarded to a session.",
  "all umasks, modes of directories, interleavings of requests and points of failure", "all interleavings and modes", D+"server.rs:Server::link_ssh_auth_sock,Server::populate_session_env_file")
p("C100", "Events are private",
  "No other user can subscribe to the events of a daemon.",
  "all umasks, ways to start the daemon, modes of directories", "needs a second user", D+"events.rs:EventBus::start,Sink::run", L+"daemonize.rs:daemonize")
p("C101", "The environment file can be sourced",
  "Sourcing the file forward.env of a session sets each variable forwarded in the last attach to its value, and does nothing else.",
  "all names and values of forwarded variables", "all strings", D+"server.rs:Server::populate_session_env_file")
PR="shpool-protocol/src/lib.rs:"
p("C102", "Messages survive the wire",
  "Every request, reply and table of variables that one side of the control socket sends is read by the other side as exactly what was sent, and reading it leaves what follows on the connection untouched.",
  "all messages, with all texts, numbers, lists and tables in them", "unbounded data", L+"protocol.rs:encode_to,decode_from", PR+"ConnectHeader,AttachHeader,AttachReplyHeader,ListReply,SessionMessageReply,MaybeSwitch,VersionHeader")
p("C103", "Mixed versions understand each other",
  "A message of another version of the protocol, with its fields in any order, with fields this version does not know and without some it knows, is read: unknown fields are ignored, missing ones have their defaults.",
  "all sets and orders of fields, all contents of unknown fields", "unbounded data from programs that do not exist yet", PR+"ConnectHeader,AttachHeader,Session,SessionStatus,TtySize,MaybeSwitch", L+"protocol.rs:decode_from")
p("C104", "A program can follow the daemon by its hooks",
  "For each session name the hooks tell of attaching (new session, reattach) and of leaving (client or shell disconnect) in turns; each attach request calls the hooks that fit what happened to it, with its session name; what a hook returns changes nothing.",
  "all interleavings of requests, shells, clients, the reaper and the calls", "all schedules", "libshpool/src/hooks.rs:Hooks", D+"server.rs:Server::handle_attach,Server::select_shell_desc")
p("C105", "The daemon listens on the socket it was passed",
  "A daemon that was passed a socket by a service manager listens on it; one that was not listens on its own path, and loses none of its own descriptors.",
  "all tables of descriptors, environments and things the daemon has opened before", "all states a process can be started in", D+"systemd.rs:activation_socket", D+"mod.rs:run")
p("C106", "A new shell is the user's",
  "A session without a command or configured shell runs the login shell of the user the daemon runs as, /bin/sh if their entry has none, in their home directory.",
  "all entries of the user database", "all entries", L+"user.rs:info", D+"server.rs:Server::handle_attach,Server::spawn_subshell")
p("C107", "A client that is gone frees its session",
  "Whatever has happened, once an attached client has gone the daemon ends its request by itself, so that the session can be attached again.",
  "all schedules of the threads of a request, all delays, all other requests", "all interleavings of five threads with time-outs", D+"shell.rs:SessionInner::bidi_stream,SessionInner::spawn_client_to_shell,SessionInner::spawn_heartbeat,SessionInner::supervise_child,SessionInner::action_detach", D+"server.rs:Server::handle_attach,Server::handle_detach")
p("C108", "The status a client is told is true",
  "An attached client is told at most one status: the one its shell exited with, or 0 if somebody asked for the client to be detached.",
  "all schedules of the threads of a request, all statuses", "all interleavings", D+"shell.rs:SessionInner::bidi_stream,SessionInner::spawn_shell_to_client,write_exit_chunk,SessionInner::action_detach")
p("C109", "The session of a shell that exited is removed",
  "A session whose shell exits while a client is attached is removed when the client's request ends, and no session is removed by the end of a request whose shell still runs.",
  "all schedules of the threads of a request", "all interleavings", D+"shell.rs:SessionInner::bidi_stream,SessionInner::supervise_child", D+"server.rs:Server::handle_attach")
p("C110", "A former client cannot type",
  "What reaches a shell from an attached client is what the client sent, in order and nothing twice; once the client's request has ended nothing it sends reaches the shell any more.",
  "all schedules of the threads of a request, all inputs", "all interleavings", D+"shell.rs:SessionInner::bidi_stream,SessionInner::spawn_client_to_shell")
p("C111", "The list of sessions can be read by programs",
  "A program that reads the output of shpool list --json gets exactly the sessions the daemon reported, in order, with everything reported about each of them.",
  "all names, times, states and attachments", "unbounded data", L+"list.rs:run", PR+"Session,SessionStatus,ListReply")
p("C112", "Variables can be read by programs",
  "A program that reads the output of shpool var list (with or without --json) gets exactly the variables and their values; one that reads the output of shpool var get learns whether the variable is set and its value.",
  "all names and values", "unbounded data", L+"var.rs:run")
p("C113", "Each line of the events output is an event",
  "Each line that shpool events prints is a JSON object that tells of an event the daemon published.",
  "all sequences of events, all ways the stream is cut into pieces, all points at which the connection ends", "all points of failure", L+"events.rs:run", D+"events.rs:Event,Sink")
p("C114", "A client of another version can attach after the warning",
  "A user whose client warns them that the daemon has another version can attach by pressing enter; what they type afterwards is for their shell.",
  "all inputs and times at which they are typed", "all times", L+"attach.rs:dial_client", D+"server.rs:Server::handle_conn", L+"protocol.rs:ClientResult")
p("C115", "A signal ends the daemon cleanly",
  "A daemon that is sent SIGINT or SIGTERM removes its sockets and exits with status 0; it does not exit unless it was sent a signal; the second signal ends it at once.",
  "all times at which signals arrive and all interleavings with the handlers", "all interleavings", D+"signals.rs:Handler::spawn", D+"mod.rs:run")
p("C116", "Editing the configuration never hangs the daemon",
  "Whenever a configuration file is edited, requests that are under way and requests that come later are still carried out.",
  "all interleavings of requests, sessions and reloads", "all interleavings", L+"config.rs:Manager::new,Manager::get", D+"server.rs:Server::build_shell_env,Server::spawn_subshell", L+"session_restore.rs:new")
p("C117", "A session is set up by one configuration",
  "All that an attach request reads of the configuration is of one version of it.",
  "all interleavings of requests and reloads", "all interleavings", L+"config.rs:Manager::get", D+"server.rs:Server::handle_attach,Server::build_shell_env,Server::spawn_subshell", L+"session_restore.rs:new")
p("C118", "A change of the configuration is noticed",
  "Whenever a change of the file system changes what is read from a configuration file, the daemon reads the configuration again.",
  "all file systems with links, all places of the files, all changes", "all shapes of the file system", L+"config_watcher.rs:ConfigWatcherInner::watch_and_add,best_effort_canonicalize,ConfigWatcher::watch", L+"config.rs:Manager::new")
p("C119", "shpool starts whatever the configuration files are links to",
  "Looking for changes of the configuration files never keeps shpool from starting.",
  "all file systems with links", "all shapes of the file system", L+"config.rs:Manager::new", L+"config_watcher.rs:ConfigWatcher::watch", L+"lib.rs:run")
p("C120", "A daemon follows its configuration",
  "Whenever the daemon runs and the configuration file is well-formed, the daemon comes to use it by itself.",
  "all ways to start the daemon, all times of edits, all interleavings with the watcher", "all interleavings", L+"config.rs:Manager::new", L+"config_watcher.rs:ConfigWatcher::with_debounce,ConfigWatcherInner::run", L+"daemonize.rs:daemonize,become_child", D+"mod.rs:run", L+"lib.rs:run")
p("C121", "A daemon comes up",
  "A daemon that could read its configuration comes to accept connections.",
  "all ways to start the daemon and all interleavings of its start with the watcher of the configuration", "all interleavings", L+"daemonize.rs:daemonize,become_child", D+"mod.rs:run", L+"config.rs:Manager::new")
p("C122", "A broken configuration does not lock users out",
  "A user whose daemon runs can list, attach, detach and kill their sessions whatever the configuration files contain.",
  "all commands, arguments and states of files", "all combinations", L+"lib.rs:run", L+"config.rs:Manager::new")
p("C123", "A daemon is started exactly when wanted",
  "A command starts a daemon if and only if it needs one, none answers on its socket, and the flags and the configuration ask for it (-D before -d before the configuration); the daemon gets the socket and configuration of the command, and the command goes on only once it is up.",
  "all commands, arguments, configurations and states of sockets and files", "all combinations", L+"lib.rs:run", L+"daemonize.rs:maybe_launch_daemon")
p("C124", "A daemon that is started is found",
  "A daemon that a command starts listens where the command looks for it.",
  "all sockets given on the command line, all working directories", "all paths", L+"daemonize.rs:maybe_launch_daemon,daemonize", D+"mod.rs:run", L+"lib.rs:run")
p("C125", "Failures are explained",
  "A command that fails says something about it, on its standard error or in the log file it was given.",
  "all commands, arguments and answers of the system and the daemon", "all combinations of failures", L+"lib.rs:run,LogWriterBuilder", L+"attach.rs:run,Attach::run,Attach::attach_resolved,Attach::dial_attach,Attach::dial_client", L+"detach.rs:run", L+"kill.rs:run", L+"list.rs:run", L+"var.rs:run", L+"events.rs:run", L+"set_log_level.rs:run")
p("C126", "The terminal's display is given back",
  "When a client ends, its terminal has the modes (alternate screen, mouse reports, hidden cursor, ...) it had before.",
  "all interleavings of the client's threads, all output of the session, all terminals", "all outputs and interleavings", L+"protocol.rs:Client::pipe_bytes", L+"tty.rs:set_attach_flags")
p("C127", "The message of the day follows the configuration",
  "A client that attaches is shown the message of the day in a pager exactly if the configuration at that time asks for it and the configured interval has passed since it was last shown; this never makes the attach fail.",
  "all histories of attach requests and edits of the configuration, all clocks that do not go back", "all histories", D+"show_motd.rs:DailyMessenger::new,DailyMessenger::display_in_pager,Debouncer::should_fire", D+"server.rs:Server::handle_attach")
p("C128", "Subscribers that leave are forgotten",
  "Once a subscriber to the events has closed its connection, the daemon lets go of it.",
  "all interleavings of publishers, subscribers and the events thread, all answers of the sockets", "all interleavings", D+"events.rs:Sink::run,SubscriberWriter")
p("C129", "A connection that does not complete its request is closed soon",
  "Whatever a client does, the daemon has its request, or has given up on it, within a minute.",
  "all requests and all ways to send them in time", "all timings", D+"server.rs:Server::handle_conn,parse_connect_header", L+"protocol.rs:decode_from", L+"consts.rs:SOCK_STREAM_TIMEOUT")
p("C130", "A client that does not read its answer does not hold up others",
  "No request waits more than a second because the client of another one reads its answer slowly.",
  "all requests, all sizes of answers, all ways to read them in time", "all timings", D+"server.rs:write_reply,Server::handle_list,Server::select_shell_desc,Server::handle_kill,Server::handle_detach", L+"protocol.rs:encode_to")
p("C131", "Clients cannot end the daemon",
  "Whatever connections are made to it, the daemon goes on.",
  "all histories of connections, all limits of the system", "all histories", D+"server.rs:Server::serve")
p("C132", "What the shell prints appears on the user's terminal",
  "At every moment what an attached client has printed is a beginning of: the snapshot of the session at the moment it attached (none for the client that started it), the message of the day if it was due, and what the shell has made visible since, in order and without gaps. All that has been sent can be printed by the client alone (if the message of the day and switch hints fit its 16 KiB buffer), and once nothing is on its way it has been; a client that was told an exit status has printed everything sent to it.",
  "all histories of the session (several clients, take-overs, broken connections, resizes, heartbeats), all ways the socket cuts up the bytes, all interleavings of daemon and client", "all interleavings and segmentations", D+"shell.rs:SessionInner::spawn_shell_to_client", L+"protocol.rs:ChunkExt::write_to,ChunkExt::read_into,Client::pipe_bytes")
p("C133", "What is typed reaches the shell",
  "If no configured key binding occurs in what the user types, the shell gets exactly that, in order, up to what is still on its way and up to a last piece that is the beginning of a binding. The shell never gets anything but what was typed, in order. Typing does not detach the client unless a detach binding is in it.",
  "all inputs, all bindings, all ways the terminal and the socket cut up the bytes, all interleavings", "all interleavings and segmentations", L+"protocol.rs:Client::pipe_bytes", D+"shell.rs:SessionInner::spawn_client_to_shell", D+"keybindings.rs:Bindings")
p("C134", "An automatically started daemon lets go of what launched it",
  "The daemon a command starts is in a session and process group of its own, has no controlling terminal and never gets one, has the root as its working directory, and holds none of the open files of the command that launched it.",
  "all launching processes, all their descriptors, all answers of the system, all that the daemon opens later", "all environments of the launching command", L+"daemonize.rs:maybe_launch_daemon,daemonize,redirect_std_fds_to_null,become_child")

p("C135", "Sessions of different names do not touch each other",
  "A client is only ever connected to a shell that was created under the name it asked for, and a session keeps its name for ever. Whatever "
  "is done about other names (attaching, detaching, killing, the ttl running out, shells exiting) leaves the session of a name, its "
  "client, its times and its line in the list exactly as they are, and what a request about a name does and answers depends only on the "
  "sessions of that name.",
  "all histories of any number of clients and requests about any names, all interleavings",
  "all interleavings of requests about all names",
  D+"server.rs:Server::handle_attach,Server::select_shell_desc,Server::handle_detach,Server::handle_kill,Server::handle_list",
  D+"ttl_reaper.rs:run")
p("C136", "Programs redraw when a client comes back",
  "When a client attaches to a session that has had one before, the programs in the session are told that the size of their terminal changed "
  "(even if the new client's terminal is as large as the old one), so that full-screen programs draw again; the terminal is larger for "
  "50 ms, and has the client's size afterwards.",
  "all histories of a session, all sizes, all schedules", "all sizes and schedules",
  D+"shell.rs:SessionInner::spawn_shell_to_client,REATTACH_RESIZE_DELAY", L+"tty.rs:TtySizeExt::set_fd")
p("C137", "A shell that runs can be reached",
  "Every shell started for a session that is still running can be reached with shpool: its session is in the table, where list, attach and "
  "kill find it by its name. A kill that succeeds leaves none of the shells running it was asked to kill, and one that reports an error removes nothing.",
  "all interleavings of attach, detach, kill and list requests, shells that exit or cannot be killed, and the ttl reaper",
  "all interleavings; shells that cannot be killed need another user",
  D+"server.rs:Server::handle_attach,Server::select_shell_desc,Server::handle_kill", D+"ttl_reaper.rs:run", D+"shell.rs:Session::kill")
p("C138", "The message pager has the terminal while it runs",
  "What the message pager prints is sent to the client byte for byte and in order, what the user types meanwhile goes to the pager byte for byte and in order, and what was not "
  "read from the client when the pager ended is still there for the shell.",
  "all interleavings of the pager, the client, the relaying thread and the thread waiting for the pager, all ways reads cut up the bytes, all failures",
  "all interleavings and segmentations", D+"pager.rs:Pager::display")
p("C139", "After the pager the terminal is the shell's",
  "When an attach goes on after the message pager has exited, everything the pager printed (with its last output it gives back the screen) has been shown to the user, and everything typed after it exited is left for the shell.",
  "all interleavings of the pager's exit with the relaying thread and the client", "a race between three threads and a process", D+"pager.rs:Pager::display")
p("C140", "The pager is gone when the attach goes on",
  "When displaying the message has ended, for whatever reason, the pager has ended: it is sent SIGTERM if it has not exited yet and SIGKILL 1270 ms later if it still has not, and no signal reaches another process.",
  "all interleavings, all reactions of the pager to signals, all reuses of process numbers", "process numbers being reused cannot be provoked in a test", D+"pager.rs:PagerProcGuard")
p("C141", "The attach goes on after the pager",
  "The message stays as long as the pager runs, the client is there and nothing fails; once the pager has exited, or the client has gone, displaying it comes to its end, whatever is typed or printed meanwhile.",
  "all fair executions", "executions without end", D+"pager.rs:Pager::display,PagerProcGuard")
p("C142", "The wait for a shell to start is bounded",
  "Before its prompt is set up a new shell is waited for. The wait is over as soon as the shell has printed the marker (not directly after a beginning of the marker), and only then does it end well; it is over when the shell ends; "
  "and it is over 90.5 seconds after it began, whatever the shell prints or does not print, but for the time reading and scanning one piece of output takes. What the shell prints after it is left for the user.",
  "all outputs of the shell, all ways reads cut it up, all timings", "would have to wait for every shell and every timing",
  D+"shell_inject.rs:wait_for_startup,maybe_setup")
p("C143", "A client whose attach is over is let go",
  "When the daemon is done with an attach request, for whatever reason (busy, an error, the shell has exited, a detach), the connection of its client is closed, so that the client ends; it does not wait for output nobody will send.",
  "all interleavings of attach, detach, kill and list requests, shells that exit, threads that end or are late, and the ttl reaper; every point at which a request can fail",
  "every point of failure in every interleaving; that something never happens",
  D+"server.rs:Server::handle_attach,Server::select_shell_desc,Server::handle_detach", D+"shell.rs:SessionInner::bidi_stream,SessionInner::spawn_shell_to_client", L+"protocol.rs:Client::read_reply")
p("C144", "No connection is leaked",
  "A connection stays open only while something still there has it: a request that is not over, a session that is in the table or that a request has, or the running thread of a session. A session that is gone keeps none, "
  "and however many clients have come and gone, at most two connections per session that is still there are open without a request that has them.",
  "all interleavings as in C143", "all histories; a test would have to count descriptors after each of them",
  D+"server.rs:Server::handle_attach,Server::select_shell_desc", D+"shell.rs:SessionInner::bidi_stream,SessionInner::spawn_shell_to_client")
p("C145", "No circle of waiting",
  "Whatever is asked of the daemon at the same time, it does not come to a standstill: a request or thread that cannot go on because a lock is taken or a thread has to end first waits, directly or through others, for one that can go on; "
  "so that, when nothing can go on any more, everything has finished and no lock is held.",
  "any number of attach, detach, kill, list, resize, variable and message requests, connections with their threads, pagers, ended shells and the ttl reaper, for any sessions, in all interleavings and with all outcomes of every branch",
  "a standstill shows only in particular interleavings of particular requests", D+"server.rs:Server", D+"shell.rs:SessionInner::bidi_stream", D+"pager.rs:Pager::display", D+"ttl_reaper.rs:run", D+"exit_notify.rs:ExitNotifier")
p("C146", "Who is attached holds up nobody",
  "A detach, kill, list, resize, message or variable request is done in the end, and an attach is over (refused or failed) or has its session in the end, however long clients stay attached, pagers are shown, connections are quiet and whatever other requests come, "
  "if no attach that has made a session finds, when it looks for it, one that another attach has to do with (the race of C145). No thread of the daemon waits for a lock for ever.",
  "all fair executions with any number of requests and threads as in C145; nothing is assumed about when, or whether, clients leave",
  "executions without end; every set of simultaneous requests", D+"server.rs:Server", D+"shell.rs:SessionInner::bidi_stream", D+"pager.rs:Pager::display", D+"ttl_reaper.rs:run")
p("C147", "The prompt is the prefix and then the user's own",
  "In a session's shell (bash, zsh or fish) every prompt is the configured prefix, once, followed by the prompt the shell would show at that time had the daemon not set it up: the user's own hooks see what they would see, and prompts the user sets are shown.",
  "all prefixes, all prompts, hooks and commands of the user, seen as arbitrary functions on the state of the shell, and all sequences of commands",
  "what hooks and commands do is up to the user; the prefix must be put there anew at each of any number of prompts without piling up",
  D+"shell_inject.rs:maybe_setup")
p("C148", "What was logged stays in the log",
  "The messages a daemon or client given a log file has written since it started are in that file: all of them at the level asked for, whole and in order, nothing else in between; what other processes do makes no difference.",
  "all histories of any number of shpool processes that start, with or without that log file, log, are asked for other levels and end; all texts",
  "which processes share a file, and in which order they start and write, is up to the users", L+"lib.rs:run,LogWriterBuilder::make_writer", L+"daemonize.rs:maybe_launch_daemon")
p("C149", "The log level is the one last asked for",
  "A process writes a message just if its level is seen with the level last asked for: by a set-log-level request since it started, else by the count of -v. A request changes the level of the daemon that got it and of no other process. "
  "Without a log file a daemon writes to its standard error and a client writes nothing, so that no log text gets into the user's terminal.",
  "all histories as in C148, all levels, all counts of -v", "all sequences of requests and messages",
  L+"lib.rs:run,LogWriterBuilder::make_writer", D+"server.rs:Server::handle_set_log_level", PR+"LogLevel")
p("C150", "Setting up the shell is not seen",
  "In a session whose shell is set up, the user sees nothing of what the daemon types into the shell, of its echo or of what the shell prints meanwhile, until the last of the commands typed has printed its line, and everything from there on: "
  "nothing that is typed is itself taken for the output of that command.",
  "all shells, prefixes, session names, start commands and paths of the binary, all output of the shell between the typed lines, all ways the output is cut into reads",
  "texts chosen by the user (name, prefix, start command, path) are part of what is echoed", D+"shell_inject.rs:maybe_setup,wait_for_startup", D+"shell.rs:SessionInner::spawn_shell_to_client", L+"lib.rs:run", L+"consts.rs:PROMPT_SENTINEL,STARTUP_SENTINEL,SENTINEL_FLAG_VAR")

p("C151", "An attach in the background disturbs no one",
  "Attaching to a session in the background without --force takes no other client's attachment away: it leaves the session in the list, with its shell running and no client, the daemon gives the session back, and whoever else is attached to any session stays attached.",
  "all sequences of requests of any number of clients around the background attach, all ways the daemon's threads and the client take turns",
  "between closing its own attachment and asking for the session to be detached by name, any number of other requests can be served", L+"attach.rs:Attach::attach_resolved", D+"server.rs:Server::handle_attach,handle_detach")

p("C152", "A forced attach gives up only on the terminal it was to replace",
  "When attaching with --force gives up because the session already has a terminal that remains attached even after attempting to detach it, that is so: twenty-two requests were refused, and each time because the very client that had the session at first still had it. A request for a session that nobody has is not refused.",
  "all sequences of requests of any number of clients, forced and not, all ways the daemon's threads and the clients take turns",
  "between two tries any number of other requests can be served", L+"attach.rs:Attach::attach_resolved,MAX_FORCE_RETRIES", D+"server.rs:Server::select_shell_desc,handle_detach")

p("C153", "The list shows one moment",
  "What shpool list tells about the sessions (which there are, whether they are attached, when a client last came and left, who is attached) is what was the case at one moment while the request was served.",
  "all histories of the daemon, all ways its threads take turns with the list request, any number of sessions and of clients that come and go meanwhile",
  "the request looks at the sessions one after the other while clients leave", D+"server.rs:Server::handle_list,handle_attach")

p("C154", "Nobody else resizes a session",
  "As long as a client is attached to a session, the size of the session's terminal changes only when that client's own terminal is resized; what happens in the terminals of clients that are not attached to it makes no difference.",
  "all histories of any number of clients that ask, are refused, try again, switch sessions, are detached and whose terminals are resized at any time",
  "resize requests name a session, and clients send them before they are attached and after they were detached", L+"attach.rs:SignalHandler,Attach::run,Attach::attach_resolved", D+"server.rs:Server::dispath_session_message")

p("C155", "Resizing a pager touches no other terminal",
  "A new window size that is sent while the message of the day is shown in a pager is set on the terminal of that pager and on nothing else.",
  "all interleavings of the pager's end, of resize requests and of everything else that opens and closes files in the daemon",
  "depends on which descriptor number is given out in a short time",
  D + "pager.rs:Pager::display,PagerCltGuard", D + "server.rs:Server::dispath_session_message")
p("C156", "A late acknowledgement costs one resize",
  "While a message pager is shown, a resize request that fails because something took too long does not keep later ones from being served; a request that is answered "
  "with success was answered for the size it asked for.",
  "all histories of resize requests and all delays", "depends on delays",
  D + "pager.rs:Pager::display", D + "server.rs:Server::dispath_session_message")
p("C157", "Showing a message touches only its pager's terminal",
  "While the message of the day is shown in a pager, what the client is shown comes from the pager's terminal and what the user types goes to it; when the pager is over, the daemon closes "
  "that terminal and nothing that belongs to somebody else.",
  "all interleavings of the pager's exit, of the thread that waits for it, of relaying, and of everything else that opens and closes files in the daemon",
  "depends on which descriptor number is given out in a short time",
  D + "pager.rs:Pager::display,PagerProcGuard")
p("C158", "A session that is gone leaves other sessions' terminals alone",
  "The output of a session reaches that session's clients and screen; it is not taken by what is left of a session that was killed, reaped or replaced, and its window size is not changed by it.",
  "all histories of killing and creating sessions, all interleavings with the old session's reader and with requests to it",
  "depends on which descriptor number is given out while a thread is between two looks at its channels",
  D + "shell.rs:SessionInner::spawn_shell_to_client,Session,SessionInner", D + "server.rs:Server::handle_kill,Server::handle_modify_var", D + "ttl_reaper.rs:run")

p("C159", "Out of descriptors, the daemon waits",
  "When the daemon has as many descriptors open as it may, it waits for one to become free: left alone (nobody connects, nothing is opened, closed or published) the threads that accept clients and event subscribers come to rest after a bounded number of steps, and nobody who has connected is lost.",
  "every limit, every history of connections, subscriptions, descriptors opened and closed, and events, every interleaving of the two threads",
  "it is about a process that has run out of a resource, at any point of its accept loops, and about what never happens afterwards",
  D+"server.rs:Server::serve", D+"events.rs:Sink::run")

p("C160", "Sessions that are gone are forgotten",
  "What the daemon keeps for the time limits (ttl) of sessions is bounded by the sessions there are: when no session of a name exists or is being made, and its registration has been taken up, neither the name nor a deadline is kept.",
  "all histories of sessions made, with or without a limit, entered, removed, registered and reaped, at all times",
  "the daemon runs for months; what accumulates shows in no single test, and a bound is a statement about all histories",
  D+"ttl_reaper.rs:run", D+"server.rs:Server::spawn_subshell")

p("C161", "Switching loses no typing",
  "While a client follows its template from one session to another, everything its user types goes to the one or the other, in order and as it was typed: nothing is lost, changed or taken for a command to the client.",
  "all histories of keys typed and switches, all moments at which a key is typed, all settings of the terminal outside",
  "the settings of the terminal change twice during a switch, and a key can be typed at any moment of it",
  L+"attach.rs:Attach::run,Attach::attach_resolved", L+"protocol.rs:Client::pipe_bytes", L+"tty.rs:set_attach_flags,AttachFlagsGuard")

p("C162", "What was typed before leaving arrives",
  "Whatever an attached client has sent before it leaves (its window is closed, it is killed, its input ends) has been written to the shell when the daemon is done with it, as long as the shell runs and reads.",
  "all schedules of the threads of a request, all inputs, all moments at which the client leaves",
  "depends on whether a heartbeat falls between the client's leaving and the daemon's last read",
  D+"shell.rs:SessionInner::bidi_stream,SessionInner::spawn_client_to_shell,SessionInner::spawn_heartbeat")

p("C163", "Resizing the terminal does not end the attach",
  "As long as there is input, no error and neither an exit status nor a hint to switch from the daemon, the client stays attached however often and however fast its terminal is resized, and the daemon is told the size the terminal has in the end.",
  "all schedules of the threads of the client, all moments of resizes, all choices of the thread a signal interrupts",
  "the kernel chooses the thread that is interrupted; the window is the running time of a signal handler",
  L+"protocol.rs:Client::pipe_bytes", L+"attach.rs:SignalHandler::spawn,SignalHandler::handle_sigwinch")

p("C164", "A session is never its own screen",
  "Wherever clients run, also at the terminals of sessions, following the clients outward from a session (the terminal its client runs at, the client of that session, and so on) comes to an end: at a terminal outside, or in a session nobody is attached to. So what a session prints is shown or kept, and is not relayed for ever.",
  "all histories of attaches, forced or not, made inside and outside of sessions, of detaches and of sessions that end",
  "depends on the whole chain of attaches at the moment, over any number of sessions",
  L+"attach.rs:Attach::run,Attach::attach_resolved", D+"server.rs:Server::select_shell_desc", D+"shell.rs:SessionInner::spawn_shell_to_client", L+"protocol.rs:Client::pipe_bytes")

p("C165", "Sessions start with default signal settings",
  "However the daemon was started, the program of a session starts with every signal set to its default and none blocked, as after a login.",
  "all settings of whoever started the daemon or ran the client that started it, all signals",
  "settings of signals are inherited from processes the tests do not vary",
  D+"signals.rs:Handler::spawn", L+"daemonize.rs:maybe_launch_daemon,daemonize,become_child", D+"server.rs:Server::spawn_subshell", D+"shell.rs:Session::kill")

p("C166", "The kept picture has the session's size",
  "When no change of size is pending, the picture of the screen that is kept for a reattach is kept for the size the session's terminal has.",
  "all histories of attaches, resizes (also while the message of the day is shown), output and detaches",
  "depends on whether the terminal was resized in the moments before the shell is shown, and shows only at a later reattach",
  D+"server.rs:Server::handle_attach,Server::spawn_subshell", D+"shell.rs:SessionInner::spawn_shell_to_client", L+"session_restore.rs:new,SessionSpool")

p("C167", "At a prompt the user sees the session",
  "Whatever the shell's start files and the start command given at the attach do, once the shell waits for the user's input its output is shown.",
  "all start files and start commands (whether they read the terminal, throw away what was typed ahead, or never come back), all orders in which the shell, the programs and the daemon act",
  "depends on what the programs run at the start of a session do with the terminal's input, and on the time they take",
  D+"shell_inject.rs:maybe_setup,wait_for_startup", D+"shell.rs:SessionInner::spawn_shell_to_client", L+"lib.rs:Commands::Attach")

p("C168", "What runs in a session is told when it ends",
  "When a session is gone, or the daemon has ended, nothing keeps the session's terminal open from outside: the terminal is hung up, so that what still runs at it is told.",
  "all histories of sessions and pagers started and removed, of processes started in them, leaving their terminal, ignoring hang-ups and ending, and of the end of the daemon",
  "depends on which sessions were there when another was started and on what still runs in those",
  D+"server.rs:Server::spawn_subshell,Server::handle_kill", D+"pager.rs:Pager::display", D+"ttl_reaper.rs:run", D+"signals.rs:Handler::spawn")

p("C169", "A session has the agent and the variables of its client",
  "Whatever runs in a session finds in the session's directory the forwarded variables of the client the session was started for or is attached to, and reaches that client's ssh agent, or none if it has none.",
  "all histories of attaches (by clients with and without an agent), starts, detaches, exits and failures, all moments at which something in the session looks",
  "depends on who had a session of that name before and on whether something looks while the shell is being started",
  D+"server.rs:Server::handle_attach,Server::link_ssh_auth_sock,Server::populate_session_env_file,Server::spawn_subshell", D+"shell_inject.rs:maybe_setup")

p("C170", "A client shown as attached can be detached",
  "When a session that the list shows as attached is detached (by a detach request, or by an attach with --force), the request that has it ends, whatever its user does or does not do, and the session can be attached again.",
  "all histories of attaches, messages shown, detaches, kills and exits, all executions fair to the daemon's threads, all behaviours of the users",
  "depends on how far the attach of the client has got when the detach request comes, and on how long a user reads",
  D+"server.rs:Server::handle_attach,Server::handle_detach,Server::handle_list", L+"attach.rs:attach_resolved", D+"show_motd.rs:DailyMessenger::display_in_pager")

p("C171", "The list can be had whatever the clock shows",
  "Whatever the system clock shows and however it is set while the daemon runs, a list request is answered and tells of every session when it was started, last connected and last disconnected; and these times fit: nobody connected before the start, whoever is attached connected after the last disconnection, and when nobody is, the last disconnection came after the last connection.",
  "all clocks (any time shown at any instant), all histories of attaches, detaches, kills and exits",
  "depends on what the clock showed when something happened, perhaps weeks ago, and on its being set in between",
  D+"server.rs:Server::handle_list,Server::spawn_subshell", D+"shell.rs:SessionLifecycle")

p("C172", "The answer to a session message is true",
  "When a client asks by name to resize or detach a session, the answer says what happened: NotFound only if no session had the name, NotAttached if the session has no client, Ok only if a session that had the name has been given the size, or has lost its client; and no other session is touched.",
  "all histories of requests, of sessions created (also in place of one of the same name) and removed, of clients coming and going and of pagers shown and ended, in all orders of their steps",
  "depends on what happens to the session table between the two times the request looks into it",
  D+"server.rs:Server::handle_session_message,Server::dispath_session_message", PR+"SessionMessageReply", D+"pager.rs:PagerCltGuard")

p("C173", "Who owns the event bus can close it",
  "When the owner of the event bus lets it go, that ends, whatever publishers and subscribers do; after it no subscriber is connected or can connect, the socket file is gone, what was published before has been broadcast, and publishing neither waits nor fails.",
  "all histories of publishers, subscribers and the bus's thread, all behaviours of the subscribers' connections, all moments of letting go, panics and errors included; all fair executions",
  "depends on what the thread is doing when it is told to stop and on what others publish meanwhile",
  D+"events.rs:EventBusHandle,EventBus::publish,Sink::run,ListenerGuard", D+"mod.rs:run")
