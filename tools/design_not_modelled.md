### Not modelled

* Argument parsing (`clap`), which messages are logged where (what becomes of a message is in `Logs`), `test_hooks` calls.
* The terminal emulators (third-party crates); they are uninterpreted.  MessagePack is modelled from its specification.
* What hooks do (code of the embedding program); that they return is assumed.
* How long the heartbeat thread and time-outs wait (that they can happen is in `Handshake` and `Bidi`).
* The wording of the messages about versions printed to the user.
* The text output of `shpool list` beyond what is cited (times are formatted by a library).
* Real time, except where a clock is an explicit part of the state.  Fairness of the scheduler is not modelled either: the theorems about
  infinite executions (names with `_fair`) assume, as hypotheses on the execution, exactly which threads are not put off for ever.
