# Formal model of pizauth: design

## Approach

The daemon is modelled as a deterministic, executable transition function
`step : Env → World → Action → Option World` in Lean 4 (`Model/World.lean`). An `Action` names which
thread moves and carries every nondeterministic input of that move (random bytes, network answer, exit
status of a shell command, outcome of reading the configuration file, hash-map iteration order,
passage of time). Theorems about histories quantify over *all* finite lists of actions (`Reach`), i.e. over
all interleavings at the granularity of critical sections of the global lock (`ct_lock`) and of the
small `pred` / `event_queue` locks (C90 shows that nothing is lost by this granularity), without bounds on the
number of accounts, threads or steps. Theorems
about what happens eventually (C58–C62) quantify over all infinite executions which are fair in the sense of
`Spec/Fair.lean`; `turnRun_fair` shows that such executions exist from every reachable state.
A panic is an explicit state (`aborted`), matching `panic = 'abort'` in Cargo.toml.

Pure parts (configuration lexer, grammar and checks, time arithmetic, request framing, HTTP request parsing,
base64, dump encoding, command line) are ordinary functions, and the state machine calls them.
The start of server processes (`Model/Startup.lean`) is a second, independent transition system: any number of
processes which share a socket file.

Files (`lean/Verif/`): `Model/*` is the model only (each definition cites the lines of `/repo` it
models), `Spec/*` are small stand-alone specifications, `Proof/*` are helper lemmas and invariants,
`Props/*` contain the property theorems and, beside each, an `example` showing that its hypotheses
are met by a concrete state. `Props/Demo.lean` has the concrete server which the examples use.

| model file | code |
|---|---|
| `Prelude`, `Base64`, `Env` | arithmetic of clocks (`std::time`), base64, the outside world as parameters |
| `Config`, `Syntax` | src/config.l, src/config.y, src/config_ast.rs, src/config.rs |
| `State` | src/server/state.rs |
| `Bincode` | `dump`/`restore` in src/server/state.rs: the bytes |
| `Net` | requests to token servers: src/server/refresher.rs, src/server/http_server.rs |
| `Unix` | src/server/mod.rs `request`, `request_token`; answers read by src/user_sender.rs |
| `Http` | src/server/http_server.rs: parsing of requests, callbacks |
| `Server`, `World` | all threads: requests, HTTP, refresher, notifier, eventer |
| `Cli` | src/main.rs, src/user_sender.rs, the crate getopts 0.2.21 |
| `Startup` | src/main.rs `server`, `cache_path`, `conf_path`; src/server/mod.rs `server` |
| `Completion` | share/bash/completion.bash, share/fish/pizauth.fish: what is offered |
| `Systemd` | lib/systemd/user/pizauth.service, examples/systemd-dropins: the service with a dump drop-in |
| `Locks` | all threads: the order of locking and waiting, nothing else |
| `Commands` | src/server/notifier.rs, eventer.rs, refresher.rs: how commands are run |
| `Jobs` | src/server/notifier.rs: the threads which run `auth_notify_cmd` and `error_notify_cmd` |
| `Browsers` | src/server/http_server.rs: connections of browsers, one thread for each |
| `Daemon` | src/server/mod.rs: `Accept`, `Browsers` and `Jobs` together |
| `Reports` | src/server/notifier.rs: what is logged about notification commands |
| `Eventing` | src/server/eventer.rs: the process for an event, its time limit, what is logged about it |
| `Probing` | src/server/refresher.rs: the processes for `transient_error_if_cmd`, their time limit |
| `Json`, `Info` | the part of `serde_json` which is used; `pizauth info` in src/main.rs, src/user_sender.rs |
| `Diag` | src/config.rs: messages about configuration files, with positions |
| `Clock` | functions which read a clock several times, with all readings |
| `Messages` | all threads: what is logged with `error!`, `warn!` and `info!` |
| `Atomic` | all threads: critical sections, one memory access at a time |
| `Accept`, `HttpStream` | src/server/mod.rs `server`, `request`; src/server/http_server.rs `parse_get`: bytes which arrive in pieces |
| `Boot` | src/server/mod.rs `server`, src/server/http_server.rs: ports and certificate, before requests are served |
| `Calendar`, `Sha256`, `ChaCha`, `UrlStd` | the parts of `chrono`, `sha2`, `chacha20poly1305` and `url` which are used |
| `Form` | the part of `form_urlencoded` which is used: bodies of POSTs, queries of URLs |

## Trusted base

* Lean 4.33.0 kernel. The theorems of MANIFEST.json depend on at most `propext`, `Classical.choice` and
  `Quot.sound` (398 of the 429 on all three, the others on fewer); there is no other axiom, no `sorry`, no
  `native_decide`, no `bv_decide`. Concrete examples use `decide +kernel`.
* That the model is a faithful reading of the code. The code is not executed here.
* External components are parameters with no assumed laws, unless a theorem names a law as a hypothesis
  (`HostLaw`: URLs with the scheme http have a host; `CryptLaw`: decryption undoes encryption; URL laws for C46):
  URL parser/printer (`url`), SHA-256, ChaCha20Poly1305, chrono formatting, network, shell
  commands, randomness. (`Model/Calendar.lean`, `Model/Sha256.lean`, `Model/ChaCha.lean` and `Model/UrlStd.lean` are concrete
  versions of four of these, for C103, C46, C107 and C108. `HostLaw` and `CryptLaw` are proved for them.) In `Model/World.lean` the answers of token servers are parsed JSON values; `Model/Json.lean` has
  the texts.
* The lexer and parser generators (lrlex, lrpar) are trusted to implement longest match and the grammar, and lines and
  columns counted from 1; getopts,
  bincode, serde_json, ureq's redirections and form_urlencoded are modelled from their documented behaviour.
* Time: `Instant`/`SystemTime` are integers in nanoseconds with the range of an `i64` seconds
  timespec; all clock readings inside one critical section are the same reading (`Model/Clock.lean` and C98 say what
  difference this makes). The monotonic clock does not go
  backwards; the wall clock may do anything. The timezone is fixed.

## Simplifications

* `u128` account ids and the `u64` failure counter are unbounded naturals (C122: the difference does not matter before
  2^64 actions).
* Mutex poisoning cannot occur because a panic aborts. Locks are only held within one step, apart from `status`, which
  holds the global lock while it writes its answer (a client which does not read it blocks everybody; see C80, C81 and
  `Model/Locks.lean`).
* In `Model/World.lean` a request on the socket is one action, which happens once it has been read completely.
  `Model/Accept.lean` adds connections, which are accepted one after the other and read piece by piece (C104): whatever
  it does is an execution of `Model/World.lean`. (A client which never closes its side of the connection blocks the
  others; C58 is about clients which do close it.)
* What commands print matters only in `Model/Reports.lean`. In `Model/World.lean` a command ends, in some way, at some time;
  `$SHELL`, processes and timeouts are in `Model/Commands.lean`. The scan of the notifier logs its commands at the scan;
  the code starts threads which run them after it has released the lock. `Model/Jobs.lean` adds these threads (C123).
* ureq follows redirects of token servers; `Model/World.lean` has one POST per attempt, and C20 is about the first request.
  `Model/Ureq.lean` has the other ones (C113).
* debug assertions are off. (`debug_assert!(!spans.is_empty())` would fail for a duplicate empty list of scopes.)
* TLS, memory, signals other than `shutdown`, and OpenBSD's `pledge` and `unveil` are not modelled.
* In `Model/Startup.lean`: symbolic links are followed; a full backlog does not make `connect` fail.
* In `Model/Systemd.lean`: encrypting and decrypting the state file undo each other; the service is not stopped before
  `ExecStartPost` is done.

## Deviations of the code from its documentation or from plausible expectations

Each of these is a theorem (`…_not`), or was noticed while modelling:

* `status` can crash the daemon (C08); a token granted while a reminder is issued is lost (C25); reminders at every
  wake-up for a huge interval (C28); events stranded across a reload (C32); stale or missing `token_invalidated` (C33);
  `restore` answers `ok:` for undecodable dumps (C38); a second block for an account replaces the first one (C43);
  upper-case schemes escape a check (C44); `login_hint` is ignored (C45); a request's last line is unbounded (C50); a
  blank before `https:` selects the HTTP port (C53); short-lived tokens are refreshed in a tight loop (C64); a dump
  before 1970 gives no answer, and exit code 0 (C74); two servers can run (C75); `server` exits with 0 though it fails
  (C76); the thread which keeps the socket file fresh does not survive `daemon` (C77); `$HOME/.config` is not tried if
  `$XDG_CONFIG_HOME` is set (C79); a client which does not read the answer to `status` stops everything (C81);
  a page which is loaded twice makes the daemon use an authorisation code twice (C83); error messages with NUL characters
  are not delivered, `token_event_cmd` has 30 seconds rather than 10, and a `transient_error_if_cmd` which cannot be
  started makes transient errors permanent (C84); `info` panics if a server of another version answers, and says nothing
  if there is no configuration file (C86); HTTP answers other than 200 have malformed status lines (C88);
  messages about times in a configuration file do not say where they are (C96); with a `refresh_before_expiry` which is
  longer than the clock's range, the refresher neither sleeps nor refreshes (C98); a redirect URI which has a parameter
  `state` itself is accepted, but callbacks to it are not recognised (C108); if a token server redirects, tokens are
  accepted from the server redirected to, even over an unencrypted connection (C113); the refresher
  starts any number of threads for a token which is due, until one of them has begun (C119);
  the systemd drop-ins restore the dump before the server listens, and lose it then (C120);
  the shell completion does not find accounts which are laid out in another way than in the manual (C121).
* Unless `-vv` is given, nothing is said about failed refreshes, not even if a token is given up: they are logged at
  level `info`, and `error_notify_cmd` is not run for them. If there is a `transient_error_if_cmd`, every sixth transient
  error is not logged (C99). A request without a colon is logged in full. If the standard error of `auth_notify_cmd` is
  not text, its standard output is logged instead.
* A token without refresh token is discarded without an event (part of C33). `revoke` queues `token_revoked` even if
  there was no token. `restore` also replaces pending authorisations. A token whose expiry the wall clock cannot
  represent is dumped as expiring now.
* An answer without `expires_in` is an error, although RFC 6749 says that it is optional.
* All transport errors are retried in the code exchange, contrary to the comment. The path of a callback is not checked.
* `token_type` is compared with exactly `Bearer`, although RFC 6749 says that case does not matter.
* Commands are killed on a timeout, but not the processes which the shell has started.
* An error in `request_token` (a redirect URI which cannot take a port) gives no reply.
* After a reload the HTTP ports are those of the start.
* `[ , "a" ]` is accepted as a list of scopes.
* The refresher may start several threads for one due token; only one of them does anything.
* A reminder may be run after the user has completed the authorisation (C123).
* If a notification command fails, what it printed to stdout is logged, although the texts speak of stderr (C126).
* What is logged about a failing `token_event_cmd` does not name the account, nor the event (C127).
* A browser may keep a thread of the HTTP server waiting for ever; there is no timeout and no limit to their number
  (C124).
* `--config PATH` is a usage error (`--config=PATH` is not), `-c` without argument silently means the default, `-h`
  exits with 1.

## Per-property plan

| id | modelled by | proof |
|----|-------------|-------|
| C01 | whole state machine + log of observable events | inductive invariant: every stored token / in-flight operation with a valid id has a lineage in the log for the *current* configuration |
| C02 | same | invariant relative to the log at the revoke |
| C03, C04 | `reload` section, `update_conf` | direct, from state well-formedness invariant |
| C05 | state machine | id freshness: ids never come back ("evolves" relation) |
| C06 | all sections | frame lemma per section |
| C07 | `aborted` flag | invariant: well-formed state + ids held by threads denote the expected kind of token |
| C08 | `status` + chrono range | false of the code: negation with a concrete reachable state; partial theorem under a bound on times |
| C09 | `showtoken`, `expiry_instant` | invariant over tokens and log |
| C10, C11 | `showtoken`, `refresh`, `request_token` | case analysis |
| C12, C13 | refresh threads | invariant linking the `ongoing_refresh` mark to exactly one thread |
| C14 | `refresh_at` | arithmetic |
| C15, C29 | refresher/notifier loops with predicate + deadline | lost-wake-up invariant |
| C16 | `next_wakeup` | invariant |
| C17–C19 | refresh thread sections | case analysis on sections |
| C20, C23 | POST events in the log | invariant over log and in-flight contexts |
| C21, C22, C27 | HTTP handler section | case analysis |
| C24 | exchange retry loop | invariant counting POSTs per thread |
| C25 | HTTP handler vs notifier | false of the code: negation by a concrete interleaving; partial theorem when no reminder is issued meanwhile |
| C26 | `fail` | case analysis |
| C28, C30 | notifier scan | invariant over log / case analysis |
| C31 | event queue + event thread | invariant over log |
| C32 | same | false when token_event_cmd is unset and later set: negation; partial theorem |
| C33 | events emitted by refresh threads | false in both directions: negations; partial theorem |
| C34, C35, C37 | `restore`, `dump` | direct |
| C36 | `dump_instant`, `restore_instant` | arithmetic with explicit clock readings |
| C38 | `restore` | first half proved; the error report is missing in the code (result dropped): negation |
| C39 | bincode encoding of the dump, byte level | round-trip by induction |
| C40, C41 | lexer rules, `unescape_str`, `time_str_to_duration` | induction on strings |
| C42 | option resolution | cases |
| C43 | `from_str`, `from_fields` | induction; duplicate accounts are *not* rejected: negation + partial |
| C44 | `from_str` | induction; upper-case schemes escape the check: negation + partial |
| C45 | `from_fields` | false of the code (hint dropped): negation |
| C46, C52, C53 | `request_token`, base64, `redirect_uri` | direct / induction |
| C47–C49 | framing, client decoding | string lemmas |
| C50 | `parse_get` | partial: bound excludes the terminating blank line; negation shows that line is unbounded |
| C51 | `status` | permutation/sortedness lemmas; independence by congruence |
| C54 | lexer | every configuration can be written: a printer and a proof that its output lexes and parses back |
| C55 | parser | soundness and completeness against an inductive grammar |
| C56 | `from_str` as a whole | accepted exactly if a declarative validity predicate holds; the result is determined by the text |
| C57 | events in the log | invariant relating queued events to token changes, both directions |
| C58–C62 | all threads, infinite fair executions | ranking arguments on the program of a thread; no lost wake-ups (from C15, C29, C32) |
| C63 | `parse_get` | soundness and completeness against a declarative description of requests |
| C64 | refresher | negation by concrete history; partial by invariant on attempts |
| C65 | all of the state machine | two-run simulation: states which differ in secrets only stay so, with equal observations |
| C66, C67, C69, C71 | requests | exact effects, by case analysis of the request's program |
| C68 | warnings in the log | case analysis of the steps which log |
| C70 | `exited` flag | case analysis of steps |
| C72 | `Model/Cli.lean` | soundness and completeness of getopts against an inductive description of command lines |
| C73, C74 | client and server together | invariant on replies per connection; `Receives` |
| C75 | `Model/Startup.lean` | negation by a concrete race; invariants for serial starts and for a settled server |
| C76, C77 | same | invariant on status and on the thread; negations |
| C78, C79 | `cache_path`, `conf_path` | case analysis |
| C80, C81 | `Model/Locks.lean` | abstract interpretation of the programs, sound for all their paths; invariant over all interleavings |
| C82 | tokens after a replacement | invariant over the log written since |
| C83 | POSTs and callbacks in the log | from C20, C23, C24; negation by a concrete execution |
| C84 | `Model/Commands.lean` | cases; negations |
| C85 | `Model/Json.lean` | soundness and completeness of the reader against an inductive grammar |
| C86 | `Model/Info.lean` | what is printed is in the grammar; string lemmas |
| C87 | `Model/Form.lean` | reading undoes writing; the spec's relation determines the pairs |
| C88 | `Model/Http.lean` | from C27; negation |
| C89 | `Model/World.lean` | case analysis of steps; `Reach.trace` for what a thread did before |
| C90 | `Model/Atomic.lean` | forward simulation: a section happens when it is left, or when it is seen |
| C91 | `Model/World.lean` | the session is constructed step by step |
| C92 | `Model/World.lean` | case analysis of operations; invariant: six seconds at most |
| C93, C94 | `Model/World.lean` | bounded versions of the arguments for C59, C61; wake-ups are among the next three operations of a thread |
| C95 | `Model/World.lean` | the operations before the end are at most so many, and none of them waits |
| C96 | `Model/Diag.lean` | false of the code: times; partial: tokens with positions, erasing the positions gives the parser of C56; analysis of the first error of each loop |
| C97 | `Spec/Leak.lean` | replacement commutes with every step; a request in the main thread is the last one in the log |
| C98 | `Spec/Clock.lean` | functions with one argument for each reading; arithmetic |
| C99 | `Spec/Messages.lean` | histories with messages; as for C16, C33, C65, C97 |
| C100 | `Spec/Query.lean` | induction on the text; arithmetic on UTF-8 |
| C101 | `Spec/PromptEvents.lean` | as C93 |
| C102 | `Spec/Manual.lean` (`Outcome`: the ways in which commands end) | the connection is not interrupted (C73); deadlines as C95 |
| C103 | `Spec/Calendar.lean` (leap years, days before a date, the text of a date) | local time is less than a day ahead or behind |
| C104 | `Spec/Accept.lean` (what was sent by whom, which requests were handled) | none (C104_serves: the client does not go away) |
| C105 | none beyond `streamGet` (a part of the request has arrived) and `parseGet` | none |
| C106 | `Spec/Boot.lean` (hexadecimal text, what makes starting fail) | http://localhost/ is an http URI |
| C107 | `Spec/ChaCha.lean` (the cipher and its key) | the crate is RFC 8439 (`Model/ChaCha.lean`) |
| C108 | `Spec/UrlStd.lean` (URLs, what browsers send) | the crate is the URL standard (`Model/UrlStd.lean`); UTS 46 results are canonical (for IPv6 addresses see C116); ports ≤ 65535 |
| C109 | `Spec/Persist.lean` (events which are waiting, starting the command, keeping a token) | there always is a `token_event_cmd`; C109_saved: the server was started without restoring a dump; C109_backup: `CryptLaw` and the clock hypotheses of C36 |
| C110 | `Spec/Examples.lean` (the documented files and defaults) | the URLs in the examples are HTTP(S) URLs (they are, by C108's parser) |
| C111 | `Spec/UrlText.lean` (form encoding of a query) | URLs are handled as in C108; auth_uri in normal form without query and fragment (C111_text also with a query) |
| C112 | `Spec/Wall.lean` (runs which differ in dates only) | dumps and restores are left out of C112, see C112_restore; if `status` is asked for, the library can write all dates |
| C113 | `Spec/Ureq.lean` (redirections, meaning of a response) | partial: the answer of the server redirected to counts as that of the token server (C113_not) |
| C114, C115 | `Spec/Deadline.lean` (executions in which nobody outside is waited for for long) | proved |
| C116 | `Spec/Ipv6.lean` (texts of IPv6 addresses, from the RFCs) | proved |
| C117 | `Spec/Ipv4.lean` (notations of IPv4 addresses) | proved |
| C118 | `Spec/Idle.lean` (parts of executions without a wake-up) | proved |
| C119 | `Spec/Schedule.lean` (threads started for an account) | partial: violated (unbounded number of threads), harmless |
| C120 | `Spec/Systemd.lean` (states of the service) | partial: violated (restore races with the start of the server) |
| C121 | `Spec/Completion.lean` (layout of the manual) | partial: violated (other layouts, colons in paths, repeated options) |
| C122 | none (the counters of the state) | proved |
| C123 | `Spec/Jobs.lean` (what was asked for) | proved |
| C124 | `Spec/Browsers.lean` (who connected, what each sent, what was handled) | proved |
| C125 | `Spec/Daemon.lean` (what clients and browsers did) with those of C104, C123, C124 | proved |
| C126 | `Spec/Reports.lean` (which commands failed, texts) | proved |
| C127 | `Spec/Eventing.lean` (which commands were run and failed, texts, turns of the event thread) | proved |
| C128 | `Spec/Probing.lean` (which commands were run, what became of them, turns of their threads) | proved |
