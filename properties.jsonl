{"id": "C01", "title": "A shown token belongs to the account as it is configured now", "statement": "Whenever `pizauth show a` prints an access token, that token was received from the token endpoint of account `a` exactly as `a` is configured at that moment (same token_uri, client_id, client_secret, auth_uri, auth_uri_fields, redirect_uri, scopes), either at the end of an authorisation started from that configuration, or by refreshing such a token, or from a restored dump that recorded precisely that configuration. A token obtained under an older configuration of `a` is never handed out.", "quantifier": "every finite history of client requests, HTTP callbacks, token-endpoint answers, reloads, restores, clock readings and every interleaving of the server's threads at lock granularity", "why_tests_cant": "the risk is a slow thread finishing after an unbounded number of reloads and other updates; tests can only try a few interleavings", "anchors": ["src/server/mod.rs:request (showtoken)", "src/server/state.rs:AccountId, update_conf, tokenstate_replace, is_act_id_valid", "src/server/http_server.rs:request", "src/server/refresher.rs:inner_refresh", "src/config.rs:secure_eq, secure_restorable"]}
{"id": "C02", "title": "Revoke is a cut-off", "statement": "After `pizauth revoke a` succeeds, `pizauth show a` never prints a token unless, after the revoke, a new authorisation request for `a` was issued (and the printed token was obtained by POSTs sent after the revoke) or a dump was restored. In particular an authentication or refresh that was already in flight cannot bring a token back.", "quantifier": "every reachable server state in which revoke is executed, and every continuation of any length and interleaving", "why_tests_cant": "in-flight threads may complete arbitrarily late", "anchors": ["src/server/mod.rs:request (revoke)", "src/server/state.rs:tokenstate_replace", "src/server/refresher.rs:sched_refresh, inner_refresh", "src/server/http_server.rs:request, fail"]}
{"id": "C03", "title": "A failed reload changes nothing", "statement": "If `pizauth reload` finds an unreadable or invalid configuration file, the server replies with an error and no account, token, pending authorisation, in-flight operation or setting is changed.", "quantifier": "every reachable state and every invalid configuration", "why_tests_cant": "all states and all error outcomes", "anchors": ["src/server/mod.rs:request (reload)", "src/config.rs:from_path"]}
{"id": "C04", "title": "A successful reload keeps exactly the tokens of security-identical accounts", "statement": "After a successful reload the accounts are exactly those of the new file. An account that existed before with identical name, auth_uri, auth_uri_fields, client_id, client_secret, redirect_uri, scopes and token_uri keeps its token or pending authorisation (and operations in flight for it stay valid); every other account has no token.", "quantifier": "every reachable state and every pair of old and new configurations, in any account iteration order", "why_tests_cant": "ranges over all configurations and all hash map orders", "anchors": ["src/server/state.rs:LockedState::update_conf", "src/config.rs:secure_eq"]}
{"id": "C05", "title": "Security-relevant reconfiguration discards work in flight", "statement": "If a reload changes any security-relevant field of account `a` (or removes it), then no authentication or refresh that was started before that reload can ever store a token for `a` afterwards, even if the account is later re-added or changed back.", "quantifier": "every reachable state, every reload, every continuation", "why_tests_cant": "ABA-style histories of unbounded length", "anchors": ["src/server/state.rs:update_conf, AccountId::new", "src/server/http_server.rs:request", "src/server/refresher.rs:inner_refresh"]}
{"id": "C06", "title": "Accounts are isolated from each other", "statement": "A revoke, show, refresh, authentication result or refresh result for one account never changes the token, pending authorisation or refresh schedule of any other account.", "quantifier": "every reachable state, every pair of distinct accounts, every operation other than reload/restore", "why_tests_cant": "all states and accounts", "anchors": ["src/server/state.rs:tokenstate_replace, tokenstate_set_ongoing_refresh", "src/server/mod.rs:request"]}
{"id": "C07", "title": "No client, browser, token server or schedule can crash the daemon through its state accessors", "statement": "The daemon (built with panic=abort) never hits an unwrap, index, assert or unreachable! on its account/token state, whatever requests, callbacks, endpoint answers and reloads it receives in whatever order and interleaving. (The formatting of times by `status` is C08.)", "quantifier": "every finite history and interleaving", "why_tests_cant": "stale identifiers only arise in particular interleavings", "anchors": ["src/server/state.rs:account, tokenstate, tokenstate_replace, tokenstate_set_ongoing_refresh, update_conf, restore", "src/server/refresher.rs:sched_refresh", "src/server/http_server.rs:request", "src/server/notifier.rs:notifier", "src/server/request_token.rs:request_token", "src/config.rs:redirect_uri"]}
{"id": "C08", "title": "`status` never crashes the daemon", "statement": "`pizauth status` can be answered in every reachable state without crashing the daemon.", "quantifier": "every reachable state", "why_tests_cant": "depends on the magnitude of expires_in values sent by a token server", "anchors": ["src/server/mod.rs:request (status), instant_fmt", "src/server/mod.rs:expiry_instant"]}
{"id": "C09", "title": "`show` never prints an expired token", "statement": "A token is printed only if its expiry instant is strictly later than the current instant, and that expiry instant is the instant at which the token was obtained plus the expires_in the server sent (or plus refresh_at_least if the former is unrepresentable), or was restored from a dump.", "quantifier": "every reachable state and clock", "why_tests_cant": "all clocks and expiries", "anchors": ["src/server/mod.rs:request (showtoken), expiry_instant"]}
{"id": "C10", "title": "`show` starts one authorisation and then keeps reporting it", "statement": "`show a` with no token creates a fresh authorisation request and reports its URL; as long as that request is outstanding further `show a` calls report the very same URL and change nothing; `show`/`refresh`/`revoke` of an unknown account report an error and change nothing.", "quantifier": "every reachable state, account name and number of repeated calls", "why_tests_cant": "unbounded repetition, all states", "anchors": ["src/server/mod.rs:request (showtoken)", "src/server/request_token.rs:request_token"]}
{"id": "C11", "title": "`-u` never reveals an authorisation URL", "statement": "A show or refresh request made without the withurl flag is never answered with the authorisation URL.", "quantifier": "every reachable state and account", "why_tests_cant": "all states", "anchors": ["src/server/mod.rs:request (refresh, showtoken)", "src/user_sender.rs:refresh, show_token"]}
{"id": "C12", "title": "At most one refresh of a token at a time", "statement": "For each account there are never two refresh threads in flight that are both still able to change the account's token, no matter how often `show`, `refresh` and the background refresher schedule refreshes concurrently.", "quantifier": "every reachable state and interleaving", "why_tests_cant": "double scheduling only happens in races", "anchors": ["src/server/refresher.rs:sched_refresh", "src/server/mod.rs:request (refresh, showtoken)"]}
{"id": "C13", "title": "A refresh is never stuck", "statement": "Whenever an account is marked as having a refresh in progress, there really is a thread performing that refresh which holds a still-valid handle; when that thread finishes the mark has been removed (or the token replaced). So `show` can never answer 'Refreshing is in progress' forever with nobody refreshing.", "quantifier": "every reachable state and interleaving, including reloads and restores during the refresh", "why_tests_cant": "stuck flags arise from rare interleavings of error paths", "anchors": ["src/server/refresher.rs:sched_refresh, inner_refresh", "src/server/state.rs:tokenstate_set_ongoing_refresh"]}
{"id": "C14", "title": "Refresh due time", "statement": "For an active token with no refresh in progress: after a failed attempt the next attempt is due exactly refresh_retry after that attempt; otherwise it is due at the earlier of expiry minus refresh_before_expiry and obtained plus refresh_at_least, hence never after the expiry (account setting overriding global setting overriding 90s / 90min / 40s).", "quantifier": "every token state, configuration and clock, including values at the edge of the representable range", "why_tests_cant": "all times, including overflow fallbacks", "anchors": ["src/server/refresher.rs:refresh_at", "src/config.rs:refresh_at_least, refresh_before_expiry, refresh_retry"]}
{"id": "C15", "title": "The background refresher never oversleeps a due token", "statement": "At any moment, for every token with a due time, either the refresher thread is not asleep, or it will wake no later than that due time, or a wake-up for it has already been posted or is about to be posted by a running thread. In particular no wake-up is lost when a token appears, a reload changes refresh times, or a refresh fails.", "quantifier": "every reachable state and interleaving of the refresher with all other threads", "why_tests_cant": "lost wake-ups depend on instruction-level interleavings", "anchors": ["src/server/refresher.rs:refresher, next_wakeup, notify_changes", "src/server/state.rs:update_conf, restore", "src/server/http_server.rs:request"]}
{"id": "C16", "title": "Periodic re-check", "statement": "While at least one token has a due time (or one authorisation is pending) the refresher (respectively the notifier) never plans to sleep beyond 37 seconds from the moment it last looked at the state.", "quantifier": "every reachable state", "why_tests_cant": "all states and clocks", "anchors": ["src/server/refresher.rs:next_wakeup", "src/server/notifier.rs:next_wakeup", "src/server/mod.rs:MAX_WAIT_SECS"]}
{"id": "C17", "title": "Transient refresh failures keep the token", "statement": "A refresh that fails transiently (DNS, connection or I/O failure) never removes the token unless the number of consecutive failures is a multiple of 6, transient_error_if_cmd is set, and that command fails; in every other case access token, refresh token and expiry are unchanged, the failure counter is increased by one, the attempt time recorded and the refresh mark removed.", "quantifier": "every reachable state, any number of consecutive failures", "why_tests_cant": "counter can be any multiple; concurrent changes", "anchors": ["src/server/refresher.rs:sched_refresh, run_not_transient_error_if"]}
{"id": "C18", "title": "Permanent refresh failures remove the token and announce it once", "statement": "If the token endpoint answers a refresh with an HTTP error status, an OAuth error, unparsable or unexpected content, and the account has not changed meanwhile, the token is removed and exactly one token_invalidated event is queued; if it has changed, nothing is changed and no event is queued.", "quantifier": "every reachable state and endpoint answer", "why_tests_cant": "all answers, interleavings", "anchors": ["src/server/refresher.rs:inner_refresh, sched_refresh"]}
{"id": "C19", "title": "Refresh token rotation", "statement": "After a successful refresh the stored refresh token is the one in the answer if the answer contains a string, the previous one if the answer has no refresh_token field, and none if the field is present but not a string; the failure counter and marks are reset.", "quantifier": "every reachable state and endpoint answer", "why_tests_cant": "all answers", "anchors": ["src/server/refresher.rs:inner_refresh"]}
{"id": "C20", "title": "Secrets only go to the account's own token endpoint", "statement": "Every POST the daemon sends goes to the token_uri of some configuration of an account and carries that configuration's client_id/client_secret; a refresh token is only ever sent to the token_uri of a configuration security-identical to the one it was obtained under.", "quantifier": "every finite history and interleaving with reloads at any point", "why_tests_cant": "reload can race with refresh", "anchors": ["src/server/refresher.rs:inner_refresh", "src/server/http_server.rs:request"]}
{"id": "C21", "title": "Callbacks with an unknown state have no effect", "statement": "An HTTP request whose `state` parameter is missing or does not equal the state of an outstanding authorisation changes no account and causes no POST.", "quantifier": "every reachable state and every HTTP request", "why_tests_cant": "all requests, all states (CSRF protection)", "anchors": ["src/server/http_server.rs:request", "src/server/state.rs:act_id_matching_token_state"]}
{"id": "C22", "title": "Callbacks at the wrong origin have no effect", "statement": "A callback whose scheme, host or port differs from the redirect URI of the account whose state it names changes nothing and causes no POST (so a code delivered over HTTP for an HTTPS redirect is ignored).", "quantifier": "every reachable state and request", "why_tests_cant": "all requests", "anchors": ["src/server/http_server.rs:request", "src/config.rs:redirect_uri"]}
{"id": "C23", "title": "Code exchange is bound to the request (PKCE)", "statement": "A code exchange POST is sent only for a callback whose state equals that of an authorisation request pizauth issued; it carries the code of that callback, the code_verifier whose S256 challenge was in the authorisation URL carrying that state, the same redirect_uri and client_id as that URL, and goes to the account's token_uri.", "quantifier": "every finite history", "why_tests_cant": "binding must hold across all interleavings", "anchors": ["src/server/http_server.rs:request", "src/server/request_token.rs:request_token"]}
{"id": "C24", "title": "Bounded and spaced retries of a code exchange", "statement": "For one callback the code is POSTed at most 10 times, never again after any HTTP response (2xx or error status) was received, and never within six seconds after the previous attempt failed.", "quantifier": "every sequence of network outcomes", "why_tests_cant": "all outcome sequences", "anchors": ["src/server/http_server.rs:request (RETRY_POST)"]}
{"id": "C25", "title": "An approved authorisation yields a token", "statement": "If the user completes authorisation and the token endpoint answers the code exchange with a valid Bearer token while that same authorisation request is still outstanding, the account ends up with that token.", "quantifier": "every reachable state and interleaving", "why_tests_cant": "a reminder notification may race with the exchange", "anchors": ["src/server/http_server.rs:request", "src/server/notifier.rs:notifier", "src/server/state.rs:tokenstate_replace"]}
{"id": "C26", "title": "A failed authentication resets only that authentication and is reported once", "statement": "If the callback or the token endpoint reports an error for an outstanding authorisation, the account returns to having no token and exactly one error notification for it is issued, which gives the reason of the failure; if the account changed meanwhile nothing is changed or reported.", "quantifier": "every reachable state and outcome", "why_tests_cant": "all outcomes, interleavings", "anchors": ["src/server/http_server.rs:request, fail", "src/server/notifier.rs:notify_error"]}
{"id": "C27", "title": "One HTTP answer per callback", "statement": "Each HTTP request handled is answered at most once, and the answer is 400 for unparsable requests, 404 for missing state or wrong origin, 200 for unknown state or accepted code, 400 for reported errors.", "quantifier": "every HTTP request, state and interleaving", "why_tests_cant": "all requests", "anchors": ["src/server/http_server.rs:request, http_200, http_400, http_404"]}
{"id": "C28", "title": "Reminders respect auth_notify_interval", "statement": "For one outstanding authorisation request, auth_notify_cmd is run the first time the notifier looks, and afterwards two runs are at least auth_notify_interval apart.", "quantifier": "every history, clock and interleaving", "why_tests_cant": "unbounded histories", "anchors": ["src/server/notifier.rs:notifier, notify_at"]}
{"id": "C29", "title": "The notifier never oversleeps a pending authorisation", "statement": "At any moment, for every pending authorisation with a next notification time, the notifier is not asleep, or wakes no later than that time, or a wake-up was or is about to be posted.", "quantifier": "every reachable state and interleaving", "why_tests_cant": "lost wake-ups", "anchors": ["src/server/notifier.rs:notifier, next_wakeup, notify_changes", "src/server/request_token.rs:request_token"]}
{"id": "C30", "title": "Notifications carry the right URL", "statement": "When the notifier looks at the accounts, it decides to run auth_notify_cmd only for an account that has an outstanding authorisation at that moment, with that account's name and that authorisation's URL. (C123 is about the threads which then run it.)", "quantifier": "every reachable state", "why_tests_cant": "all states", "anchors": ["src/server/notifier.rs:notifier"]}
{"id": "C31", "title": "Events are processed in order, one at a time, at most once", "statement": "token_event_cmd executions form a subsequence of the queued events in queue order, each event is executed at most once, and no two executions overlap.", "quantifier": "every history and interleaving of event producers with the event thread", "why_tests_cant": "producer/consumer interleavings", "anchors": ["src/server/eventer.rs:eventer, token_event"]}
{"id": "C32", "title": "Queued events are not stranded", "statement": "If token_event_cmd is set, then whenever an event is queued the event thread is busy draining the queue or has been (or is about to be) woken; so every queued event is eventually executed.", "quantifier": "every history and interleaving, including reloads that add or remove token_event_cmd", "why_tests_cant": "lost wake-ups and stranded events only show up in rare histories", "anchors": ["src/server/eventer.rs:eventer, token_event"]}
{"id": "C33", "title": "token_invalidated is accurate", "statement": "A token_invalidated event for `a` is queued only when a token of `a` was removed by the same operation, and whenever the refresher removes a token a token_invalidated event is queued.", "quantifier": "every history and interleaving", "why_tests_cant": "needs a reload/revoke to race with transient_error_if_cmd", "anchors": ["src/server/refresher.rs:sched_refresh, inner_refresh", "src/server/http_server.rs:fail"]}
{"id": "C34", "title": "Restore never replaces a live token", "statement": "`pizauth restore` never changes an account that currently has a token, never changes the configuration, only ever turns an account without token into one with the dumped token, and restoring the same dump twice is the same as restoring it once.", "quantifier": "every reachable state and every dump", "why_tests_cant": "all dumps and states", "anchors": ["src/server/state.rs:LockedState::restore, TokenState::restore"]}
{"id": "C35", "title": "Restore ignores dump entries for changed accounts", "statement": "A dumped token is restored into account `a` only if every security-relevant field recorded in the dump for `a` equals `a`'s current configuration; entries for unknown accounts are ignored.", "quantifier": "every reachable state and every dump", "why_tests_cant": "all dumps and configurations", "anchors": ["src/server/state.rs:LockedState::restore", "src/config.rs:secure_restorable, dump"]}
{"id": "C36", "title": "Dump then restore preserves tokens and remaining lifetime", "statement": "Restoring a dump into a server with the same configuration and no tokens gives every account that had a token the same access token and refresh token, with a remaining lifetime equal to the one at dump time minus the wall-clock time that passed in between; accounts without a token stay without one.", "quantifier": "every reachable state and all clock readings within range", "why_tests_cant": "all clock values, including tokens already expired", "anchors": ["src/server/state.rs:TokenState::dump, TokenState::restore, LockedState::dump, LockedState::restore"]}
{"id": "C37", "title": "Dumps contain no pending-authorisation secrets", "statement": "A dump contains nothing about outstanding authorisations: two states differing only in pending versus absent tokens produce the same dump.", "quantifier": "every reachable state", "why_tests_cant": "all states", "anchors": ["src/server/state.rs:TokenState::dump"]}
{"id": "C38", "title": "Restore validates its input", "statement": "Input that is too short, fails decryption, cannot be decoded or has an unknown version leaves the state unchanged and is reported as an error.", "quantifier": "every byte string", "why_tests_cant": "all byte strings", "anchors": ["src/server/state.rs:AuthenticatorState::restore, LockedState::restore"]}
{"id": "C39", "title": "The dump byte format round-trips", "statement": "Decoding the bytes of a dump gives back the dump, for any number and content of accounts; a strict prefix of a dump's bytes is rejected.", "quantifier": "every dump value", "why_tests_cant": "unbounded data", "anchors": ["src/server/state.rs:Dump, LockedState::dump, LockedState::restore (bincode)"]}
{"id": "C40", "title": "String literals denote every string", "statement": "Every string can be written as a string literal in the configuration file by escaping quotes and backslashes, the literal is recognised as one token and denotes exactly that string, and no literal accepted by the lexer makes unescaping fail.", "quantifier": "every string", "why_tests_cant": "all strings, all escape combinations", "anchors": ["src/config.rs:unescape_str", "src/config.l:STRING"]}
{"id": "C41", "title": "Time literals are exact or rejected", "statement": "A time literal n[smhd] denotes exactly n seconds/minutes/hours/days or is rejected because it does not fit in 64 bits; it never wraps.", "quantifier": "every digit string and unit", "why_tests_cant": "all numbers", "anchors": ["src/config.rs:time_str_to_duration", "src/config.l:TIME"]}
{"id": "C42", "title": "Account settings override global settings override defaults", "statement": "The effective refresh_at_least, refresh_before_expiry and refresh_retry of an account are its own setting if given, else the global one, else 90min/90s/40s.", "quantifier": "every accepted configuration", "why_tests_cant": "all configurations", "anchors": ["src/config.rs:refresh_at_least, refresh_before_expiry, refresh_retry, from_str"]}
{"id": "C43", "title": "Nothing may be specified twice", "statement": "A configuration in which a top-level option, an account field or an account is specified twice is rejected.", "quantifier": "every configuration", "why_tests_cant": "all configurations", "anchors": ["src/config.rs:from_str, from_fields, check_not_assigned"]}
{"id": "C44", "title": "An accepted configuration is usable", "statement": "An accepted configuration has at least one account, every account has auth_uri, client_id and token_uri which are http(s) URIs, at least one of the two servers is on, and no account has an https (http) redirect URI while the HTTPS (HTTP) server is switched off.", "quantifier": "every configuration text", "why_tests_cant": "all configurations", "anchors": ["src/config.rs:from_str, from_fields, check_not_assigned_uri"]}
{"id": "C45", "title": "login_hint is passed to the authorisation server", "statement": "An account configured with login_hint = \"h\" gets authorisation URLs containing login_hint=h (documented as silently transformed into the equivalent auth_uri_fields).", "quantifier": "every configuration with login_hint", "why_tests_cant": "all configurations", "anchors": ["src/config.rs:from_fields", "CHANGES.md:0.2.1", "pizauth.conf.5:login_hint"]}
{"id": "C46", "title": "Shape of authorisation URLs", "statement": "An authorisation URL is the account's auth_uri with, in order, pizauth's own parameters (including response_type=code, client_id, redirect_uri, state, S256 challenge and, iff scopes is non-empty, the scopes joined by spaces) followed by auth_uri_fields in the order written, duplicates kept. The challenge is the base64url encoding of the SHA-256 hash of the code verifier (43 URL-safe characters).", "quantifier": "every account configuration and random choice", "why_tests_cant": "all configurations", "anchors": ["src/server/request_token.rs:request_token"]}
{"id": "C47", "title": "Client and server agree on every request", "statement": "For every account name (including names with spaces, colons, quotes, non-ASCII or empty) and every flag, what the client sends is understood by the server as the same command for the same account and flag.", "quantifier": "every string account name and flag, every restore payload", "why_tests_cant": "all strings", "anchors": ["src/user_sender.rs:refresh, show_token, revoke, restore, status, reload, dump", "src/server/mod.rs:request"]}
{"id": "C48", "title": "The client reports the server's answer faithfully", "statement": "`show` prints exactly the stored token and succeeds iff the server answered with a token, for any token/URL/error text (including ones containing ':'); otherwise it fails with the server's message.", "quantifier": "every server state and token text", "why_tests_cant": "all strings", "anchors": ["src/user_sender.rs:show_token, refresh, status, reload, revoke, restore", "src/server/mod.rs:request"]}
{"id": "C49", "title": "Malformed client requests are harmless", "statement": "A byte string that is not a well-formed request changes no state.", "quantifier": "every byte string and reachable state", "why_tests_cant": "all byte strings", "anchors": ["src/server/mod.rs:request"]}
{"id": "C50", "title": "HTTP requests are bounded in size", "statement": "pizauth never accepts an HTTP request of more than 16 KiB.", "quantifier": "every byte stream", "why_tests_cant": "all byte streams", "anchors": ["src/server/http_server.rs:parse_get (MAX_HTTP_REQUEST_SIZE)", "CHANGES.md:1.0.7"]}
{"id": "C51", "title": "status lists every account once and leaks no secret", "statement": "`status` answers with exactly one line per configured account, sorted, and its answer does not depend on access tokens, refresh tokens, states, verifiers or URLs.", "quantifier": "every reachable state", "why_tests_cant": "all states", "anchors": ["src/server/mod.rs:request (status)"]}
{"id": "C52", "title": "State and verifier encoding", "statement": "The state and code_verifier strings are URL-safe (A-Z a-z 0-9 - _), 11 and 86 characters long (the latter within PKCE's 43..128), and different random bytes give different strings. Both are the base64url encoding of the random bytes (RFC 4648, section 5, without padding).", "quantifier": "every random byte array", "why_tests_cant": "2^64 and 2^512 values", "anchors": ["src/server/request_token.rs:request_token", "src/server/mod.rs:CODE_VERIFIER_LEN, STATE_LEN"]}
{"id": "C53", "title": "Redirect URIs name the right server port", "statement": "The redirect URI sent to the authorisation server is the configured one with the port of the HTTPS server if it is an https URI and the HTTPS server runs, and otherwise the port of the HTTP server; computing it never panics for a running server.", "quantifier": "every account configuration and pair of ports", "why_tests_cant": "all configurations", "anchors": ["src/config.rs:Account::redirect_uri", "src/server/mod.rs:server"]}
{"id": "C54", "title": "Which configuration files can be written", "statement": "The syntax trees of configuration files are exactly those whose strings and times are literals: every such tree can be written as a file, and every file has such a tree. Blanks and comments (to the end of the line, whatever they contain) between tokens are ignored.", "quantifier": "every syntax tree, every comment and every rest of the file", "why_tests_cant": "unboundedly many trees, strings and comments", "anchors": ["src/config.l", "src/config.y", "src/config_ast.rs"]}
{"id": "C55", "title": "The parser accepts exactly the grammar", "statement": "A configuration file has a syntax tree if and only if its tokens can be derived by the rules of config.y, the tree is the one the rules give, and no token sequence has two trees.", "quantifier": "every file", "why_tests_cant": "unboundedly many files", "anchors": ["src/config.y", "src/config.rs:Config::from_str"]}
{"id": "C56", "title": "Exactly the valid configurations are accepted, and mean what they say", "statement": "A configuration file is accepted if and only if it is valid (no option or account field twice, acceptable values, mandatory fields there, an account, the needed servers not switched off), every setting of the resulting configuration is the one in the file or its default, and the order of the fields of an account does not matter.", "quantifier": "every file", "why_tests_cant": "unboundedly many files", "anchors": ["src/config.rs:Config::from_str, Account::from_fields"]}
{"id": "C57", "title": "token_new, token_refreshed and token_revoked are accurate and complete", "statement": "A token_new event for `a` is queued only after the same thread turned a pending authorisation of `a` into a token; token_refreshed only after the same thread replaced a token of `a` that it was refreshing; token_revoked only after `revoke a` was requested and `a` was left without a token. Conversely, whenever an account gets a token different from the one it had, it is either restored from a dump into an account without a token, or the storing thread goes on to queue token_new (after an authorisation) or token_refreshed (after a refresh).", "quantifier": "every history and interleaving", "why_tests_cant": "the accuracy of an event depends on what other threads did since the operation that it reports began", "anchors": ["src/server/refresher.rs:sched_refresh, inner_refresh", "src/server/http_server.rs:request", "src/server/mod.rs:request"]}
{"id": "C58", "title": "No request hangs", "statement": "In every execution in which the daemon keeps running, its clock does not stop and no thread is starved, every thread which serves a Unix client, serves an HTTP request, exchanges a code or refreshes a token eventually ends, and every connection to the Unix socket is eventually closed, after which the next client can be served.", "quantifier": "every infinite fair execution", "why_tests_cant": "termination of retries, waits and lock hand-overs under every interleaving cannot be observed in finitely many runs", "anchors": ["src/server/mod.rs:main loop, request", "src/server/http_server.rs:request, http_server", "src/server/refresher.rs:sched_refresh"]}
{"id": "C59", "title": "Tokens are eventually refreshed without anybody asking", "statement": "In every fair execution in which refresh_retry stays bounded, a token which is not being refreshed is eventually either lost by the account or its refresh token is sent to a token server of the account, even if no client ever connects.", "quantifier": "every infinite fair execution, whatever clients do and however often the configuration is reloaded", "why_tests_cant": "a lost wake-up of the refresher thread needs a particular interleaving; its absence is a property of infinite executions", "anchors": ["src/server/refresher.rs:refresher, next_wakeup, notify_changes"]}
{"id": "C60", "title": "No refresh lasts forever", "statement": "In every fair execution no account is marked as being refreshed forever: at infinitely many moments it is not marked.", "quantifier": "every infinite fair execution", "why_tests_cant": "a mark left behind by one of the many ways in which a refresh can end blocks all further refreshes of the account", "anchors": ["src/server/refresher.rs:sched_refresh, inner_refresh"]}
{"id": "C61", "title": "Users are eventually told of outstanding authorisations", "statement": "In every fair execution in which auth_notify_cmd stays set and auth_notify_interval does not change, an outstanding authorisation eventually ends or the user is notified of its URL.", "quantifier": "every infinite fair execution", "why_tests_cant": "a lost wake-up of the notifier thread needs a particular interleaving", "anchors": ["src/server/notifier.rs:notifier, notify_changes, next_wakeup"]}
{"id": "C62", "title": "Queued events are eventually executed", "statement": "In every fair execution in which token_event_cmd stays set from a moment in which no event is stranded, all events queued at that moment are eventually executed, in order.", "quantifier": "every infinite fair execution", "why_tests_cant": "a lost wake-up of the eventer thread needs a particular interleaving", "anchors": ["src/server/eventer.rs:eventer, token_event"]}
{"id": "C63", "title": "Which HTTP requests are understood", "statement": "A request to the HTTP(S) server is understood exactly if its first line is a GET line with a path, its header contains, within the size limits, exactly one Host field (continuation lines included), and scheme, host and path together form a URL; the request's URL is then that URL.", "quantifier": "every byte sequence received on an HTTP or HTTPS connection", "why_tests_cant": "the set of byte sequences is unbounded; header folding, white space and duplicate fields combine freely", "anchors": ["src/server/http_server.rs:parse_get"]}
{"id": "C64", "title": "Refresh attempts are spaced out", "statement": "The refresher never starts two refreshes of the same account within refresh_retry of each other without a client asking for it.", "quantifier": "every reachable state and every scan of the refresher", "why_tests_cant": "the violating case needs a token server which grants tokens that live shorter than refresh_before_expiry", "anchors": ["src/server/refresher.rs:refresh_at, refresher"]}
{"id": "C65", "title": "Tokens go nowhere but to show and to token servers", "statement": "If the access and refresh tokens which token servers grant are replaced by others and everything else that happens to the server stays the same, then everything observable of the server (replies, HTTP answers, commands and their environment, requests to token servers, order and timing) stays the same, except for the access token in answers to show and the refresh token in refresh requests. Dump requests are left out.", "quantifier": "every finite history without dump requests, every replacement", "why_tests_cant": "compares two executions, for all histories and all replacements", "anchors": ["src/server/mod.rs:request", "src/server/http_server.rs:request", "src/server/refresher.rs:inner_refresh", "src/server/eventer.rs:eventer", "src/server/notifier.rs:notifier"]}
{"id": "C66", "title": "What show does when there is a token", "statement": "If the account has a token when show is executed: if it has not expired it is the answer and nothing changes; if it has expired, the answer is an error which says whether a refresh is already in progress, and if none is, exactly one refresh of this account is started. Nothing else changes in any of these cases.", "quantifier": "every reachable state, every show request", "why_tests_cant": "the effect depends on the token's state at the moment of execution, for all states and interleavings", "anchors": ["src/server/mod.rs:request"]}
{"id": "C67", "title": "What refresh does", "statement": "If the account has a token when refresh is executed, exactly one refresh of this account is started, even if the token has not expired, and the answer is scheduled:. If it has none, a new authorisation made of fresh random bytes takes the place of an outstanding one, if any, and the notifier is woken.", "quantifier": "every reachable state, every refresh request", "why_tests_cant": "all states and interleavings; freshness of the random bytes is not observable in a test", "anchors": ["src/server/mod.rs:request", "src/server/request_token.rs:request_token"]}
{"id": "C68", "title": "Where errors are reported", "statement": "An error is handed to error_notify_cmd if the configuration at that moment has one, and written to syslog if and only if it has none.", "quantifier": "every reachable state and step", "why_tests_cant": "depends on configuration changes between the error and its report", "anchors": ["src/server/mod.rs:AuthenticatorState", "src/server/refresher.rs", "src/server/http_server.rs"]}
{"id": "C69", "title": "What info says", "statement": "The answer to info is a JSON object with the ports of the HTTP and HTTPS servers (and the HTTPS public key if there is one); info changes nothing; the ports are those of start-up, whatever reloads bring.", "quantifier": "every reachable state, every execution", "why_tests_cant": "covers reloads and all configurations", "anchors": ["src/server/mod.rs:request"]}
{"id": "C70", "title": "Only shutdown ends the server", "statement": "shutdown ends the process without an answer and without changing any token; nothing happens afterwards; no other request, callback or background activity ends the process normally.", "quantifier": "every reachable state and step", "why_tests_cant": "universally quantified over everything that can happen", "anchors": ["src/server/mod.rs:request"]}
{"id": "C71", "title": "How a refresh begins", "statement": "A thread started to refresh an account first marks a token which is not being refreshed, records the time of the attempt and is then about to POST the account's refresh token to its token_uri; a token without refresh token is removed; if the token is being refreshed already or there is none, the thread ends without effect.", "quantifier": "every reachable state in which such a thread is about to run", "why_tests_cant": "interleavings between starting the thread and its first step", "anchors": ["src/server/refresher.rs:refresh, inner_refresh"]}
{"id": "C72", "title": "What command lines mean", "statement": "`pizauth show|refresh [-u] [-v] ACCOUNT`, `revoke [-v] ACCOUNT` and `dump|reload|restore|shutdown|status [-v]` make exactly the request they name: options may be given by letter, in groups or by their long names, in any order; `-u` at most once, and it decides about the URL; everything after `--` is an account name, so that every name can be given; `server` and `info` take the configuration file from `-c` (attached or following) or `--config=`, at most once; all other command lines lead to the usage message.", "quantifier": "every list of arguments", "why_tests_cant": "infinitely many lists of arguments", "anchors": ["src/main.rs:main"]}
{"id": "C73", "title": "Exit codes and output of the client", "statement": "A command exits with 0 exactly if the server was reached and answered with success; otherwise it exits with 1, prints nothing to stdout and prints an error message. (`shutdown` waits for no answer and exits with 0 exactly if its request was written; `dump` exits with 0 exactly if the connection did not break, and prints what it read, byte by byte.) A client receives at most one answer. If `pizauth show` exits with 0, it has printed exactly one token and a newline, and the account held that unexpired token while the request was being handled.", "quantifier": "every command, every way in which a connection may go, every reachable state", "why_tests_cant": "the connection may break in any way, and the server may be in any state", "anchors": ["src/main.rs:main", "src/user_sender.rs"]}
{"id": "C74", "title": "Every request is answered", "statement": "Every request which a client command makes, except `shutdown`, is answered before the connection is closed; in particular `pizauth dump` exits with 0 only if it has printed a dump.", "quantifier": "every command, every reachable state", "why_tests_cant": "depends on states and clock readings", "anchors": ["src/server/mod.rs:request", "src/user_sender.rs:dump"]}
{"id": "C75", "title": "At most one server", "statement": "Of the server processes of one user at most one serves at a time, and it is the one which clients reach; once a server serves, every `pizauth server` which is started later exits with 1 and leaves the server alone.", "quantifier": "any number of server processes, every interleaving of their steps, every outcome of their system calls", "why_tests_cant": "needs processes which are started at the same time, and their interleavings", "anchors": ["src/main.rs:main", "src/server/mod.rs:server"]}
{"id": "C76", "title": "Exit status of pizauth server", "statement": "`pizauth server` exits with 0 if the server started successfully, or 1 otherwise.", "quantifier": "any number of server processes, every interleaving of their steps, every outcome of their system calls", "why_tests_cant": "depends on every way in which starting can fail", "anchors": ["src/main.rs:main", "src/server/mod.rs:server", "pizauth.1:server"]}
{"id": "C77", "title": "The socket file is kept fresh", "statement": "While a server is running, it updates the timestamps of its socket file at least every six hours, so that the file is not subject to the periodic clean-up of $XDG_RUNTIME_DIR.", "quantifier": "every run of any length", "why_tests_cant": "would need to wait for hours, with and without a daemon", "anchors": ["src/main.rs:main"]}
{"id": "C78", "title": "Private directories", "statement": "A command which gets beyond its preparations has a cache directory, in $XDG_RUNTIME_DIR or else in runtime-$USER in $TMPDIR or /tmp; both directories belong to the user and nobody else has any permissions there. If a directory of that name belongs to somebody else, then the command ends.", "quantifier": "every environment, every file system", "why_tests_cant": "depends on the file system before the start", "anchors": ["src/main.rs:cache_path"]}
{"id": "C79", "title": "The configuration file", "statement": "The configuration file is the one given by `-c`, or else the first one which exists of $XDG_CONFIG_HOME/pizauth.conf and $HOME/.config/pizauth.conf.", "quantifier": "every environment, every file system", "why_tests_cant": "depends on the environment and the file system", "anchors": ["src/main.rs:conf_path", "pizauth.1:server"]}
{"id": "C80", "title": "No deadlock", "statement": "A thread of the daemon never holds two locks, and while it holds one it does not wait for a lock, for the network, for a command, for a request, and does not sleep; so a thread which waits for a lock waits for a thread which can go on.", "quantifier": "any number of threads, every interleaving, every path through the code", "why_tests_cant": "deadlocks depend on interleavings", "anchors": ["src/server/state.rs:AuthenticatorState", "src/server/refresher.rs:Refresher", "src/server/notifier.rs:Notifier", "src/server/eventer.rs:Eventer", "src/server/http_server.rs:request"]}
{"id": "C81", "title": "Clients hold nobody up", "statement": "A thread which waits for a lock does not wait for what a client does: refreshing, reminders, events and callbacks go on whatever the clients of the socket do.", "quantifier": "any number of threads, every interleaving, every path through the code", "why_tests_cant": "needs clients which misbehave at the wrong time", "anchors": ["src/server/mod.rs:request", "src/server/refresher.rs:refresher"]}
{"id": "C82", "title": "A token which was replaced does not come back", "statement": "After a token was stored for an account (by an authorisation, a refresh or a restore), every token which the account holds or `pizauth show` prints later is this one, or one which the token server granted (or a dump contained) after that. A slow answer to an earlier request never brings an older token back.", "quantifier": "every account, every execution, every interleaving of threads", "why_tests_cant": "needs answers which arrive late or out of order", "anchors": ["src/server/refresher.rs:refresh", "src/server/request_token.rs:request_token", "src/server/state.rs:tokenstate_replace"]}
{"id": "C83", "title": "Authorisation codes are used once", "statement": "An authorisation code which a browser delivered is exchanged by one thread only, in at most ten POSTs, and it is not sent again after the token server has answered (RFC 6749, 4.1.2: a code MUST NOT be used more than once).", "quantifier": "every code, every execution, every interleaving", "why_tests_cant": "needs a browser which loads the redirect page several times, and slow token servers", "anchors": ["src/server/http_server.rs:request"]}
{"id": "C84", "title": "Commands are run as documented", "statement": "Each command of the configuration is run as `$SHELL -c <cmd>` with exactly the documented environment variables; token_event_cmd and transient_error_if_cmd are killed after their documented timeouts and not before; transient_error_if_cmd is successful exactly if it exits with 0 in time.", "quantifier": "all commands, accounts, messages, URLs, all fates of processes", "why_tests_cant": "needs processes which hang, cannot be started, or get unusual strings", "anchors": ["src/server/notifier.rs", "src/server/eventer.rs", "src/server/refresher.rs:run_transient_error_if_cmd"]}
{"id": "C85", "title": "Answers of token servers are read as JSON", "statement": "An answer of a token server grants an access token exactly if its text is a JSON object (RFC 8259, nested at most 127 deep) in which token_type is the string Bearer, access_token is a string, expires_in is a natural number below 2^64 written with digits only, and error is not a string; of duplicate keys the last one counts. Every other text is reported as invalid, and no text has two meanings.", "quantifier": "all texts", "why_tests_cant": "the JSON grammar has infinitely many texts: escapes, surrogates, nesting, numbers, white space", "anchors": ["src/server/http_server.rs:193", "src/server/refresher.rs:293"]}
{"id": "C86", "title": "What `pizauth info` prints", "statement": "`pizauth info` prints the cache directory, the configuration file, the version, and the ports and public key of the server, or that no server is running; `-j` prints the same as a JSON text, for any characters in the paths. Whatever answers at the socket, it does not crash.", "quantifier": "all paths, program names, ports, keys, and all answers", "why_tests_cant": "needs unusual paths and servers of other versions", "anchors": ["src/main.rs:170", "src/user_sender.rs:server_info", "src/server/mod.rs:103"]}
{"id": "C87", "title": "Parameters cannot be forged", "statement": "The bodies of POSTs to token servers, and the queries of authorisation URLs, are read by any server as exactly the names and values which pizauth meant, whatever characters the configuration, a code from a callback, or a token contains: no value adds, replaces or hides a parameter. Callbacks are read correctly, whichever characters the authorisation server escapes.", "quantifier": "all lists of pairs of strings, all forms, all reachable states", "why_tests_cant": "needs all characters (`&`, `=`, `%`, `+`, line ends, non-ASCII) in all places", "anchors": ["src/server/http_server.rs:60", "src/server/http_server.rs:133", "src/server/refresher.rs:241", "src/server/request_token.rs:53"]}
{"id": "C88", "title": "HTTP answers", "statement": "Every answer to a browser is an HTTP response (RFC 9112), and contains nothing that came with the request, nor any secret: it is one of four fixed texts.", "quantifier": "all requests, all reachable states", "why_tests_cant": "injection into pages needs adversarial requests in all states", "anchors": ["src/server/http_server.rs:358", "src/server/http_server.rs:366", "src/server/http_server.rs:370"]}
{"id": "C89", "title": "The life of an account", "statement": "Whatever pizauth does next: if the token state of an account changes, it changes in one of seventeen ways, each with its reason (a request for that account, a dump which offers a token for it, a changed configuration, a callback for its authorisation, an answer of the token server to its code or its refresh token, a reminder, a result of transient_error_if_cmd), and becomes what that reason says. Tokens never turn into authorisation requests directly; accounts come and go only with new configurations.", "quantifier": "all reachable states, all actions, all accounts", "why_tests_cant": "a list of all causes cannot be established by observing some", "anchors": ["src/server/state.rs:175", "src/server/state.rs:224", "src/server/state.rs:357", "src/server/state.rs:389", "src/server/http_server.rs:38", "src/server/http_server.rs:251", "src/server/refresher.rs:57", "src/server/refresher.rs:211", "src/server/notifier.rs:30", "src/server/request_token.rs:11"]}
{"id": "C90", "title": "Critical sections are atomic", "statement": "Whatever the threads of pizauth compute, it makes no difference that other threads may run between any two of their memory accesses: what can be seen from outside (requests, answers, commands, their order), and the shared data when no lock is held, is what it would be if every critical section were executed at once; and every such execution is possible.", "quantifier": "all computations, all threads, all interleavings of single accesses", "why_tests_cant": "races show rarely, if at all; and no test shows that there are none", "anchors": ["src/server/state.rs:48", "src/server/state.rs:279", "src/server/refresher.rs:44", "src/server/notifier.rs:17", "src/server/eventer.rs:38", "src/server/mod.rs:249"]}
{"id": "C91", "title": "No account is ever stuck", "statement": "Whatever requests, callbacks, answers, reloads and restores a running daemon has seen, and whatever it is doing, every account of its configuration can still be given a token in the ordinary way: revoke it, ask for it with show, log in, ask again. The daemon can react to these four steps (and the token server's answer) at once, and the second show prints the token.", "quantifier": "all reachable states, all accounts, all random bytes, codes, token servers' answers", "why_tests_cant": "a state from which an account cannot be recovered without a restart would have to be found by chance", "anchors": ["src/server/mod.rs:98", "src/server/http_server.rs:48", "src/server/request_token.rs:11", "src/server/state.rs:266"]}
{"id": "C92", "title": "No thread waits for another", "statement": "A thread which exchanges a code or refreshes a token can always go on, whatever the other threads are doing: at once, or after at most six seconds if it waits to repeat a POST. So can the thread which serves clients.", "quantifier": "all reachable states, all threads, all answers from the outside", "why_tests_cant": "a wait which never ends shows only in the schedules which lead to it", "anchors": ["src/server/http_server.rs:154", "src/server/refresher.rs:52", "src/server/mod.rs:398"]}
{"id": "C93", "title": "Tokens are refreshed in time", "statement": "If every thread which is not waiting for a token server or a command gets its next turn within δ, then a token which is due is refreshed (its refresh token is sent to the account's token server) within 9·δ, unless the account loses it before - whatever clients and servers do. In particular, if `refresh_before_expiry` is at least 9·δ, a new token is refreshed before it expires.", "quantifier": "all infinite executions in which threads get their turns within δ, all δ, all accounts and tokens", "why_tests_cant": "bounds on delays over all schedules cannot be measured by running some of them", "anchors": ["src/server/refresher.rs:refresher", "src/server/refresher.rs:sched_refresh", "src/server/refresher.rs:inner_refresh"]}
{"id": "C94", "title": "Users are told in time", "statement": "Under the same assumption, the user is told of an outstanding authorisation within 8·δ of the time when that is due (at once for a new one, `auth_notify_interval` after the last time otherwise), unless it is not outstanding any more.", "quantifier": "all such executions, all δ, all accounts", "why_tests_cant": "bounds on delays over all schedules cannot be measured by running some of them", "anchors": ["src/server/notifier.rs:notifier", "src/server/notifier.rs:next_wakeup"]}
{"id": "C95", "title": "Clients are served in time", "statement": "Under the same assumption, a client which has sent its request is served and its connection closed within 6·δ, and a browser is answered within 2·δ, however long token servers and commands take to answer.", "quantifier": "all such executions, all δ, all requests", "why_tests_cant": "a request which waits for a slow token server is served late only then", "anchors": ["src/server/mod.rs:request", "src/server/http_server.rs:request"]}
{"id": "C96", "title": "Messages about configuration files are right", "statement": "Every configuration file is either accepted or rejected with a message, never anything else (no panic). The message names something which is really wrong with the file: an option or field given twice or renamed, an invalid URI, a missing field, both kinds of login hint, with everything before it in the file being all right; and it begins with the line and column of the token which is to blame, counted from 1, and the text of that line. Or it is about a time which is too large, or about the listen options and accounts as a whole, or is the parser's for a syntax error.", "quantifier": "all texts of configuration files, all URL parsers", "why_tests_cant": "positions depend on everything before them in the file", "anchors": ["src/config.rs:649", "src/config.rs:253", "src/config.rs:299", "src/config.rs:360", "src/config.rs:607", "src/config.y:13"]}
{"id": "C97", "title": "Client secrets, verifiers and authorisation codes go nowhere but to token servers", "statement": "Replace the client secrets in configurations, the random bytes which PKCE verifiers are made of, and the codes in callbacks by others (different secrets stay different, verifiers keep their hashes), and leave everything else that happens to the server as it is: then what can be observed of the server is the same, except for the fields `client_secret`, `code_verifier` and `code` of forms sent to token servers. So nothing else (answers, pages, URLs, commands and their environment, and the timing of it all) gives away anything about them, except for the hash of a verifier. Clients which ask for dumps or for them to be restored are left out.", "quantifier": "all configurations, all replacements, all executions without `dump` and `restore`", "why_tests_cant": "a test sees two executions, and would have to compare all of them", "anchors": ["src/server/request_token.rs:14", "src/server/http_server.rs:37", "src/server/refresher.rs:73", "src/server/state.rs:100"]}
{"id": "C98", "title": "Reading a clock again changes times by no more than the time between the readings", "statement": "The server reads its two clocks several times where one reading would do: up to five times to write a time into a dump or to read one from it, and once for each account to compute until when to sleep or which tokens are due. If all readings are within some bound of each other, times in dumps, restored times and the times until which the refresher and the notifier sleep are off by no more than twice that bound; and which tokens are found due is not affected at all. (The last part is false for tokens with a refresh_before_expiry of several hundred billion years: then the refresher does not sleep, but finds nothing to do either.)", "quantifier": "all readings of the clocks, all times, all states", "why_tests_cant": "a test cannot control what happens between two readings of a clock", "anchors": ["src/server/state.rs:477", "src/server/state.rs:512", "src/server/refresher.rs:374", "src/server/refresher.rs:471", "src/server/notifier.rs:122", "src/server/notifier.rs:175"]}
{"id": "C99", "title": "The log tells what happens to tokens, and nothing secret", "statement": "Messages about failed refreshes are true: there was an answer of the token server (or none) with the reason which is given, or transient_error_if_cmd failed. Whenever a token is given up because it cannot be refreshed this is logged; so is every other failed refresh, except for every sixth in a row if there is a transient_error_if_cmd. These messages are shown only if -v is given twice. Without -v, what is logged are exactly the errors of authorisation requests for which there is no error_notify_cmd. Warnings are about requests of clients or browsers: there is one for a request exactly if it gets no answer, and one if a token is granted whose expiry cannot be represented. Changing client secrets, verifiers, authorisation codes, access tokens or refresh tokens does not change what is logged (dumps and restores set aside).", "quantifier": "all reachable states, all texts of errors of the operating system and of libraries, all replacements of secrets", "why_tests_cant": "a log of one run shows neither what is missing from it nor what it would have been with other secrets", "anchors": ["src/server/refresher.rs:76", "src/server/refresher.rs:130", "src/server/refresher.rs:140", "src/server/notifier.rs:167", "src/server/mod.rs:401", "src/server/http_server.rs:394", "src/main.rs:332"]}
{"id": "C100", "title": "Every query is read, in exactly one way", "statement": "Whatever query a browser is made to send to the HTTP server, its names and values are those of a specification: pieces between &, empty ones skipped; the name ends at the first =; + is a blank; % is an escape if two hexadecimal digits follow and stands for itself otherwise; where the result is not UTF-8, each longest beginning of a character (or else each byte) is read as U+FFFD. The specification gives each query exactly one meaning. A name and value without U+FFFD were sent exactly; in particular a request which is matched with a pending authorisation has state= and exactly its state, up to escapes.", "quantifier": "all byte strings as queries, all reachable states, all pending authorisations", "why_tests_cant": "there are infinitely many malformed queries, and 2^64 states", "anchors": ["src/server/http_server.rs:60", "src/server/http_server.rs:69", "src/server/http_server.rs:95", "src/server/http_server.rs:110"]}
{"id": "C101", "title": "Events are executed in time", "statement": "If every thread which does not wait for something outside gets its next turn within δ, and token_event_cmd takes at most c (it is killed after 30 seconds, C84), then the command is run for the j-th event which waits within j·(c + 6·δ), as long as token_event_cmd stays set; and an event which a thread has to tell is queued within 3·δ.", "quantifier": "all infinite executions in which threads get their turns within δ and the command ends within c, all δ and c, any number of events", "why_tests_cant": "bounds on delays over all schedules cannot be measured by running some of them", "anchors": ["src/server/eventer.rs:eventer", "src/server/eventer.rs:token_event"]}
{"id": "C102", "title": "The commands do what the manual says", "statement": "From end to end: what a client command prints, the message it ends with, and its exit code are those which follow from what the server knew when it carried out the request. show prints the access token and exits with 0 exactly for a token which has not expired; otherwise it exits with 1 and says whether a refresh is in progress or was started, or that the user has to authorise at a URL, which then is that of the pending authorisation (left out after -u). refresh exits with 0 if a refresh of the account's token was started, revoke if the account has no token any more, and no other account is changed. reload exits with 0 if a valid configuration was installed, and otherwise with 1 and none was. restore exits with 1 if the input is too short or cannot be deciphered; what dump prints is restored by another server with exit code 0, and the tokens are then there with their lifetimes. status prints a sorted line for each account. If the threads get their turns within δ, each command has its answer within 6·δ.", "quantifier": "all reachable states of the server, all commands, arguments and account names, all schedules of the other threads meanwhile", "why_tests_cant": "the behaviour of two processes together, in all interleavings with the threads of the server", "anchors": ["src/main.rs:main", "src/user_sender.rs:show_token", "src/user_sender.rs:refresh", "src/user_sender.rs:restore", "src/server/mod.rs:request"]}
{"id": "C103", "title": "Dates are right", "statement": "Where status shows when a token was obtained, when it expires, when a refresh was last attempted or when the user was last told, it prints the date and time of day of that moment, to the second, in local time, in the format of RFC 2822, section 3.3 (day of the week, day, month, year, time, offset), according to the Gregorian calendar. The text belongs to exactly one date. Moments in years before 0 or after 9999, and only these, cannot be printed (and then status crashes, C08).", "quantifier": "all moments, all local times less than a day away from UTC", "why_tests_cant": "leap years, ends of centuries and offsets: all days of 10000 years", "anchors": ["src/server/mod.rs:instant_fmt", "src/server/mod.rs:request"]}
{"id": "C104", "title": "Requests arrive whole and in order", "statement": "Clients connect to the socket, send in pieces, close their side or go away, at any times. Every request that the server handles is exactly all that one client sent before it closed its side, however it was cut up and mixed with what others sent. Clients are served in the order in which they connected; only clients which went away are passed over. Once a client has closed its side the server gets its request after a bounded number of reads. On the other hand: while the client being read neither closes its side nor goes away, no request of anyone is handled.", "quantifier": "all sequences of connecting, sending, closing, going away, accepting, reading (of any number of bytes) and other actions of the server", "why_tests_cant": "fragmentation and interleaving of several clients", "anchors": ["src/server/mod.rs:request", "src/server/mod.rs:server"]}
{"id": "C105", "title": "HTTP requests are handled as soon as they are complete", "statement": "A browser need not close its connection, and may send in pieces: as soon as it has sent an empty line (whatever came before) the server stops reading, and so it does when the connection is closed. What it has found out then is what it would have found out from all that the browser ever sends; later bytes change nothing. Until the end of the first line it waits.", "quantifier": "all byte strings, all ways to cut them into a part which has arrived and a part which has not", "why_tests_cant": "arrival of requests in arbitrary pieces", "anchors": ["src/server/http_server.rs:parse_get"]}
{"id": "C106", "title": "Starting a server", "statement": "`pizauth server` with an accepted configuration file starts unless an address cannot be bound or the certificate cannot be made (this is then the error message). It has the configuration of the file and no tokens, it listens at the ports which the operating system gave it for `http_listen` and `https_listen`, `info` reports exactly these and the public key (in hexadecimal) of a certificate for localhost, 127.0.0.1, ::1 and the host name. Callbacks are accepted by the servers which were switched on at the start, at any time, and by no others, whatever configurations are loaded later.", "quantifier": "all configuration files, all behaviours of the operating system and of the TLS library, all executions", "why_tests_cant": "needs ports, host names and certificates to fail in every combination", "anchors": ["src/server/mod.rs:server", "src/server/http_server.rs:http_server_setup", "src/server/http_server.rs:https_server_setup", "src/server/http_server.rs:http_server", "src/server/http_server.rs:https_server"]}
{"id": "C107", "title": "Dumps are encrypted with ChaCha20Poly1305", "statement": "With the cipher of RFC 8439 and the key which is built in, exactly those inputs of `restore` are accepted (answer `ok:`) which consist of 12 bytes and the encryption of some text with these bytes as the nonce; all others are refused and change nothing. Different texts have different encryptions; encryption adds 16 bytes and fails only for texts of 256 GiB or more; changes in the last 16 bytes are noticed. What `dump` prints, `restore` restores.", "quantifier": "all texts, all nonces, all states and executions", "why_tests_cant": "all inputs of a cipher", "anchors": ["src/server/state.rs:AuthenticatorState::dump", "src/server/state.rs:AuthenticatorState::restore"]}
{"id": "C108", "title": "With the URL standard, browsers bring codes back", "statement": "If the authorisation server sends a browser to the redirect URI it was told, with `state` and `code` added, then the request which the browser makes for this URL is understood by pizauth, with the right scheme, host and port and these parameters, and so it is recognised as belonging to the pending authorisation and the code is accepted, for every redirect URI in a configuration (with user names, international domains, addresses, ports, paths, queries and fragments) which has no parameters `state`, `code` or `error` itself; if it has a `state`, that one is taken and no callback is recognised. Texts of URLs are read as what they were written for, parameters included. Every http URL has a host.", "quantifier": "all URLs, accounts, ports, parameters, requests, states and executions", "why_tests_cant": "all URLs", "anchors": ["src/config.rs:Account::redirect_uri", "src/server/http_server.rs:parse_get", "src/server/http_server.rs:request", "src/server/request_token.rs:request_token"]}
{"id": "C109", "title": "token_event_cmd can keep a dump up to date", "statement": "While there is a `token_event_cmd`, an event which is waiting (to be queued, or in the queue) stays so until the command is started for it. Hence, in a server in which no dump was restored and no event concerning an account is waiting, the command was started for this account since the account has the token (with the access token, refresh token and times) it has now, and a dump made since then carries this token over to another server with the same settings. After a token was revoked, the command is started for this account, so that the dump does not keep the revoked token.", "quantifier": "all accounts, tokens, configurations, schedules and executions", "why_tests_cant": "all schedules of the threads: an event could be lost, or the command started before the new token is there", "anchors": ["README.md:Persistence", "src/server/eventer.rs:Eventer::eventer", "src/server/eventer.rs:Eventer::token_event", "src/server/state.rs:AuthenticatorState::dump"]}
{"id": "C110", "title": "The documented configurations work as documented", "statement": "The account examples of the manual page and the README (Office 365, Microsoft, Gmail, Miele), with any account name, client id, client secret and login hint filled in, are accepted and give exactly this account, with the documented defaults for everything else; so do the README's notification commands (whose escaped quotes become quotes) and its fixed `http_listen` port with such an account. 90s means 90 seconds and 5m 5 minutes. (The `http_listen=off` of the change log, however, is a syntax error: only `none` exists.)", "quantifier": "every text filled in for the placeholders (written as a string literal)", "why_tests_cant": "the examples are not among the tests, and there are infinitely many texts to fill in (quotes, backslashes, comment signs)", "anchors": ["pizauth.conf.5:EXAMPLES", "README.md:Account setup", "README.md:Example account settings", "examples/pizauth.conf", "src/config.l", "src/config.y", "src/config.rs:Config::from_str"]}
{"id": "C111", "title": "The documented quick start ends in the documented URL", "statement": "The first `pizauth show` for an account without a token prints, character for character, the account's auth_uri followed by `?` and the parameters access_type=offline, code_challenge, code_challenge_method=S256, client_id, redirect_uri (with the port of the HTTP server), response_type=code, state, scope (only if there are scopes) and then the auth_uri_fields, in this order and form-urlencoded; nothing else (in particular not the client secret). For the documented Office 365 and Gmail configurations the printed text is given literally, from the text of the configuration file to the error message of the client and its exit status. (The sample output in the README is from an older version: it has another order and contains the client secret.)", "quantifier": "every authorisation endpoint in normal form with or without a query, every account, every configuration file of the documented shape, every run from starting the server to the request", "why_tests_cant": "the URL contains random parts and arbitrary configured text, so a test can only compare samples of it", "anchors": ["src/server/request_token.rs:request_token", "src/config.rs:Account::redirect_uri", "src/user_sender.rs:show_token", "README.md:Quick setup"]}
{"id": "C112", "title": "Adjusting the system's date disturbs nothing", "statement": "Take any run of the server in which nothing is dumped or restored, and let the same things happen to it while the system's date is another one, and is adjusted at other times and to other dates. Then the server does the same things at the same moments (requests to token servers, notifications, events, answers to clients and browsers, shutdown, panics) and ends in the same state; only the dates in answers to `status` may differ. Restoring the same dump at another date gives the same answer and leaves every account in the same state, except for the times at which restored tokens were obtained and expire.", "quantifier": "every configuration, every initial state, every run without dumps and restores, every way of adjusting the date in it, every dump and every two dates for restoring", "why_tests_cant": "the claim compares pairs of runs of any length with any adjustments of the date at any point between them; a test can adjust the date of the machine once or twice", "anchors": ["src/server/mod.rs:request", "src/server/state.rs:restore_instant", "src/server/refresher.rs:Refresher::refresh_at", "src/server/notifier.rs:Notifier::notify_at", "pizauth.1:Clock drift"]}
{"id": "C113", "title": "Redirections by token servers", "statement": "Whatever servers answer, and however often they redirect: the form with the client secret and the authorisation code or refresh token is sent exactly once per attempt, to the token_uri of the account. There are at most five further requests, all of them GET without a form, each to where the answer before it pointed (301, 302, 303; the answers 307 and 308, which ask to send the form elsewhere, are not obeyed). An access token is only accepted from the server at the token_uri.", "quantifier": "all answers of all servers, all addresses and forms; every POST in every history of the daemon", "why_tests_cant": "a test has a few servers with a few redirections; the claim is about all of them, and about what is not sent", "anchors": ["src/server/http_server.rs:159-181", "src/server/refresher.rs:252-291"]}
{"id": "C114", "title": "Logins come to an end in time", "statement": "If threads get their turns within some time δ and token servers answer (or requests to them time out) within T, then whatever a browser has sent is dealt with completely - answered, and, if it completes a login, the code exchanged for a token or the login given up - within ten times (T and six seconds) and 27 turns: so within six minutes, with the timeout of 30 seconds which the program sets for its requests.", "quantifier": "all histories in which nobody is kept waiting for longer than δ, all requests, all answers and failures of token servers, everything else going on at the same time", "why_tests_cant": "a token server which is down for minutes is not part of a test, nor is the worst case of all interleavings", "anchors": ["src/server/http_server.rs:28-29", "src/server/http_server.rs:150-200"]}
{"id": "C115", "title": "Refreshes come to an end in time", "statement": "If threads get their turns within δ, token servers answer (or requests time out) within T and transient_error_if_cmd ends within C, then no account is marked as being refreshed for longer than T + C and seven turns, whatever happens meanwhile: the account is not locked out of further refreshes.", "quantifier": "all histories in which nobody is kept waiting for longer than δ, T and C, all accounts", "why_tests_cant": "the time a mark is held at most depends on the slowest path through all outcomes and interleavings", "anchors": ["src/server/refresher.rs:165-215", "src/server/refresher.rs:217-420"]}
{"id": "C116", "title": "IPv6 addresses in URLs", "statement": "In a URL, the text between brackets is accepted as a host exactly if it is the text of an IPv6 address by RFC 4291 (eight groups, `::` at most once and for at least one group, the last two groups possibly as an IPv4 address), and stands for that address. It is written as RFC 5952 recommends (lower case, no leading zeros, the first of the longest runs of at least two zeros as `::`). So the redirect URI of the configuration and the Host of a browser's request name the same host if and only if they name the same address, however each is written.", "quantifier": "all texts and addresses", "why_tests_cant": "all texts", "anchors": ["src/config.rs:Account::redirect_uri", "src/server/http_server.rs:340-365"]}
{"id": "C117", "title": "IPv4 addresses in URLs", "statement": "A host of a URL (in the configuration, or in a browser's request) which is an IPv4 address in any notation — one to four decimal, octal or hexadecimal numbers, of which the last takes the remaining bytes, perhaps with a dot at the end — is accepted and written as four decimal numbers. Any other ASCII domain whose last label is a number is rejected, and other ASCII domains are kept in lower case. So two such hosts are the same if and only if they are the same address, and no URL is ever written with an IPv4 address in another notation.", "quantifier": "all texts and addresses", "why_tests_cant": "all texts", "anchors": ["src/config.rs:Account::redirect_uri", "src/server/http_server.rs:340-365"]}
{"id": "C118", "title": "The background threads do not run in vain", "statement": "After each time the refresher (or the notifier) has looked at the state, it looks again only if some thread has woken it meanwhile or after the time until which it planned to wait; the eventer looks for events again only if some thread has woken it.", "quantifier": "every execution, from the start or from any time such a thread went on", "why_tests_cant": "all interleavings and times", "anchors": ["src/server/refresher.rs:447-487", "src/server/notifier.rs:34-60", "src/server/eventer.rs:54-75"]}
{"id": "C119", "title": "One thread for each token which is due", "statement": "For a token which is due the refresher starts one thread, which refreshes it; it does not start further threads for the same token.", "quantifier": "every execution of the daemon", "why_tests_cant": "all interleavings of the refresher with the threads it starts; the number of superfluous threads has no bound", "anchors": ["src/server/refresher.rs:57-68", "src/server/refresher.rs:447-487"]}
{"id": "C120", "title": "Tokens survive a restart of the systemd service", "statement": "With the systemd service and one of the drop-ins which dump the state when the service is stopped and restore it when it is started, an account which has a token when the service is stopped has the same token after the service has been started again (if its settings are the same).", "quantifier": "every interleaving of the steps of systemd (ExecStart, ExecStartPost, ExecStop), the starting server process, and everything the server does while it runs", "why_tests_cant": "systemd runs ExecStartPost as soon as the process has been created; whether the server listens by then depends on timing", "anchors": ["lib/systemd/user/pizauth.service:4-8", "examples/systemd-dropins/age.conf:1-6", "examples/systemd-dropins/gpg-dump.conf:4-11"]}
{"id": "C121", "title": "Completion of command lines", "statement": "The shell completion offers exactly the commands which there are, only words which can be part of an accepted command line, and as accounts exactly the accounts of the configuration file.", "quantifier": "every configuration file, every output of `pizauth info`, every command line", "why_tests_cant": "the completion scripts look for accounts with `sed` rather than with the parser; tests of the scripts would have to cover every way to lay out a configuration file", "anchors": ["share/bash/completion.bash:2-76", "share/fish/pizauth.fish:3-6", "src/main.rs:130-412", "src/config.y:13-33"]}
{"id": "C122", "title": "Counters do not overflow", "statement": "The counter from which account identifiers are taken and the counter of failed refreshes stay below the bounds of their types (128 and 64 bits): in n actions at most k + n(k+2) identifiers are handed out, if no configuration has more than k accounts, and no token has more than n failures on record.", "quantifier": "every environment, every configuration (with at most k accounts), every execution (of n actions)", "why_tests_cant": "an overflow would need more actions than any test can perform; it would abort the daemon, or (if it wrapped) make two accounts share an identifier", "anchors": ["src/server/state.rs:151-155", "src/server/state.rs:408-424", "src/server/state.rs:158-207", "src/server/state.rs:253-261", "src/server/refresher.rs:96"]}
{"id": "C123", "title": "Reminders and errors are handed over once, and nobody waits for them", "statement": "Every reminder and every error which it was decided to hand to auth_notify_cmd or error_notify_cmd is handed to it exactly once, or is still waiting for that; no others are. A reminder is for an authorisation which was outstanding when the notifier looked, though it may have been completed when the command starts. Nobody waits for these commands, however many are running.", "quantifier": "every environment, every execution with the threads which run the commands, in every interleaving", "why_tests_cant": "the interleavings of the notifier, the threads which run commands and everything else", "anchors": ["src/server/notifier.rs:34-110", "src/server/notifier.rs:135-167"]}
{"id": "C124", "title": "Browsers are served independently of each other", "statement": "Whatever browsers do, each request which is handled is that of one browser, and no browser has more than one. It is handled as if everything this browser sends had arrived at once, however it is cut into pieces, and as soon as enough has arrived, whatever other browsers do. Nothing else in pizauth waits for browsers. There is no limit to the time a browser takes, nor to the number of those which wait.", "quantifier": "every environment, every execution with connections of browsers, in every interleaving and however what they send is cut into pieces", "why_tests_cant": "the interleavings of the threads of connections, and all ways to cut requests", "anchors": ["src/server/http_server.rs:36-56", "src/server/http_server.rs:282-356", "src/server/http_server.rs:385-466"]}
{"id": "C125", "title": "Clients, browsers and commands do not hold each other up", "statement": "With clients, browsers and the threads which run commands all at once: clients are served in their order with what they sent, browsers independently of each other with what they sent, and reminders and errors are handed over once. A browser is answered while the main thread waits for a client; clients are served as if there were no browsers and no commands; nothing else in the server waits for any of them, except that the notifier first starts the threads for its last reminders.", "quantifier": "every environment, every execution of the server with clients, browsers and commands, in every interleaving", "why_tests_cant": "the interleavings of all threads, clients, browsers and commands", "anchors": ["src/server/mod.rs:353-405", "src/server/http_server.rs:385-466", "src/server/notifier.rs:34-110"]}
{"id": "C126", "title": "Failures of notification commands are logged", "statement": "For each auth_notify_cmd and error_notify_cmd which fails, and for no other, exactly one error is logged. It names the account and the command and says why the command could not be run, or what it printed to stdout (not what it printed to stderr). The outcome of these commands changes nothing else.", "quantifier": "every environment, every execution with the threads which run the commands, every outcome of every command", "why_tests_cant": "all outcomes of commands and all interleavings", "anchors": ["src/server/notifier.rs:87-110", "src/server/notifier.rs:143-168"]}
{"id": "C127", "title": "Commands for token events do not hold up others for more than 30 seconds", "statement": "The process for an event is the documented one; it is killed only if it has run for 30 seconds, and then (or if it has ended or could not be started) the event thread goes on to the next event, while nothing else waits for it. If threads get their turns within δ, then the command is run for the j-th waiting event within j·(30 s + 8·δ), whatever the commands do. For each command which fails, and for no other, exactly one error is logged, which names the command.", "quantifier": "every environment, every finite and infinite execution with processes for token_event_cmd which end in any way at any time or never, all δ, any number of events", "why_tests_cant": "processes which hang, all interleavings, infinite executions", "anchors": ["src/server/eventer.rs:18", "src/server/eventer.rs:53-113"]}
{"id": "C128", "title": "transient_error_if_cmd holds up a refresh for at most three minutes", "statement": "The process for transient_error_if_cmd is the documented one (shell, -c, the command, the account's name in PIZAUTH_ACCOUNT, no input or output); it is killed only if it has run for three minutes, and then (or if it has ended or could not be started) its thread goes on, while no other thread waits for it. It counts as successful exactly if it has ended with exit code 0. If it was successful the token is kept; otherwise it is removed and token_invalidated is queued (unless the account was changed meanwhile). If threads get their turns within δ, and token servers answer (or requests to them time out) within T, then no account is marked as being refreshed for longer than T + 3 min + 9·δ, whatever the commands do.", "quantifier": "every environment, every finite and infinite execution with processes for transient_error_if_cmd which end in any way at any time or never, all δ and T, any number of threads", "why_tests_cant": "processes which hang, all interleavings, infinite executions", "anchors": ["src/server/refresher.rs:27", "src/server/refresher.rs:167-202"]}
