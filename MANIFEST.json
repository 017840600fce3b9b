{
 "claims": [
  {
   "property": "C01",
   "status": "proved",
   "theorems": [
    "Pizauth.C01_shown",
    "Pizauth.C01_stored"
   ],
   "note": ""
  },
  {
   "property": "C02",
   "status": "proved",
   "theorems": [
    "Pizauth.C02_shown",
    "Pizauth.C02_stored",
    "Pizauth.C02_now"
   ],
   "note": ""
  },
  {
   "property": "C03",
   "status": "proved",
   "theorems": [
    "Pizauth.C03_step",
    "Pizauth.C03_answer",
    "Pizauth.C03_only_reload"
   ],
   "note": ""
  },
  {
   "property": "C04",
   "status": "proved",
   "theorems": [
    "Pizauth.C04_accounts",
    "Pizauth.C04_kept",
    "Pizauth.C04_dropped",
    "Pizauth.C04_threads",
    "Pizauth.C04_same"
   ],
   "note": ""
  },
  {
   "property": "C05",
   "status": "proved",
   "theorems": [
    "Pizauth.C05_shown",
    "Pizauth.C05_stored"
   ],
   "note": ""
  },
  {
   "property": "C06",
   "status": "proved",
   "theorems": [
    "Pizauth.C06_request",
    "Pizauth.C06_callback",
    "Pizauth.C06_thread",
    "Pizauth.C06_notifier",
    "Pizauth.C06_others"
   ],
   "note": ""
  },
  {
   "property": "C07",
   "status": "proved",
   "theorems": [
    "Pizauth.C07_abort",
    "Pizauth.C07_no_status",
    "Pizauth.C07_never"
   ],
   "note": "C07_abort: the only panic in any reachable state is the formatting of a time by status (C08)."
  },
  {
   "property": "C08",
   "status": "partial",
   "theorems": [
    "Pizauth.C08_exact",
    "Pizauth.C08_years",
    "Pizauth.C08_status_partial",
    "Pizauth.C08_not"
   ],
   "note": "False as stated: a token endpoint may send an expires_in so large that chrono cannot format the expiry (C08_not, concrete history). C08_status_partial: status never crashes the daemon if every time to be printed can be formatted. C08_exact, C08_years: exactly when it does crash (with chrono: a time to be printed lies before year 0 or after year 9999)."
  },
  {
   "property": "C09",
   "status": "proved",
   "theorems": [
    "Pizauth.C09_shown",
    "Pizauth.C09_held",
    "Pizauth.C09_expiry"
   ],
   "note": ""
  },
  {
   "property": "C10",
   "status": "proved",
   "theorems": [
    "Pizauth.C10_start",
    "Pizauth.C10_again",
    "Pizauth.C10_unknown",
    "Pizauth.C10_keep",
    "Pizauth.C10_same",
    "Pizauth.C10_same_url"
   ],
   "note": ""
  },
  {
   "property": "C11",
   "status": "proved",
   "theorems": [
    "Pizauth.C11",
    "Pizauth.C11_all"
   ],
   "note": ""
  },
  {
   "property": "C12",
   "status": "proved",
   "theorems": [
    "Pizauth.C12_single_refresh",
    "Pizauth.C12_stale_harmless"
   ],
   "note": ""
  },
  {
   "property": "C13",
   "status": "proved",
   "theorems": [
    "Pizauth.C13_mark_has_thread",
    "Pizauth.C13_thread_has_mark",
    "Pizauth.C13_refresh_ends",
    "Pizauth.C13_never_blocked"
   ],
   "note": ""
  },
  {
   "property": "C14",
   "status": "proved",
   "theorems": [
    "Pizauth.C14_scan",
    "Pizauth.C14_retry",
    "Pizauth.C14_normal",
    "Pizauth.C14_before_expiry",
    "Pizauth.C14_unique"
   ],
   "note": "C14_scan: what the refresher starts; the other theorems say what the due time is. If the clock cannot represent a time, dueTime in Spec/Schedule.lean says what counts instead."
  },
  {
   "property": "C15",
   "status": "proved",
   "theorems": [
    "Pizauth.C15_no_oversleep",
    "Pizauth.C15_progress",
    "Pizauth.C15_due",
    "Pizauth.C15_started"
   ],
   "note": "C15_no_oversleep is the invariant; C15_progress, C15_due and C15_started turn it into refreshes being started."
  },
  {
   "property": "C16",
   "status": "proved",
   "theorems": [
    "Pizauth.C16_refresher",
    "Pizauth.C16_notifier"
   ],
   "note": "The 37 seconds are a limit if the clock can represent that time."
  },
  {
   "property": "C17",
   "status": "proved",
   "theorems": [
    "Pizauth.C17_transient"
   ],
   "note": ""
  },
  {
   "property": "C18",
   "status": "proved",
   "theorems": [
    "Pizauth.C18_permanent"
   ],
   "note": ""
  },
  {
   "property": "C19",
   "status": "proved",
   "theorems": [
    "Pizauth.C19_success"
   ],
   "note": ""
  },
  {
   "property": "C20",
   "status": "proved",
   "theorems": [
    "Pizauth.C20"
   ],
   "note": ""
  },
  {
   "property": "C21",
   "status": "proved",
   "theorems": [
    "Pizauth.C21"
   ],
   "note": ""
  },
  {
   "property": "C22",
   "status": "proved",
   "theorems": [
    "Pizauth.C22"
   ],
   "note": ""
  },
  {
   "property": "C23",
   "status": "proved",
   "theorems": [
    "Pizauth.C23_param",
    "Pizauth.C23"
   ],
   "note": ""
  },
  {
   "property": "C24",
   "status": "proved",
   "theorems": [
    "Pizauth.C24",
    "Pizauth.C24_spacing"
   ],
   "note": "C24_spacing: the time between attempts."
  },
  {
   "property": "C25",
   "status": "partial",
   "theorems": [
    "Pizauth.C25_quiet_partial",
    "Pizauth.C25_partial",
    "Pizauth.C25_not"
   ],
   "note": "False as stated: C25_not (a reminder issued while the code is being exchanged changes the account's id, so the granted token is silently dropped). C25_partial: all outcomes; the token is stored unless the thread's handle on the account was lost or the clock cannot represent the expiry. C25_quiet_partial: the handle is not lost, and the request remains outstanding, as long as no reminder falls due, no client reloads or restores or revokes or refreshes the account, no other callback names the request, and no other thread was at work on any of that."
  },
  {
   "property": "C26",
   "status": "proved",
   "theorems": [
    "Pizauth.C26_exchange",
    "Pizauth.C26_callback"
   ],
   "note": "C26_exchange for the token server's answers, C26_callback for errors reported by the callback."
  },
  {
   "property": "C27",
   "status": "proved",
   "theorems": [
    "Pizauth.C27_once",
    "Pizauth.C27_answer",
    "Pizauth.C27_finished",
    "Pizauth.C27_asked"
   ],
   "note": "C27_finished assumes that http URLs have hosts (HostLaw)."
  },
  {
   "property": "C28",
   "status": "partial",
   "theorems": [
    "Pizauth.C28_scan_partial",
    "Pizauth.C28_partial",
    "Pizauth.C28_not"
   ],
   "note": "False as stated: C28_not (an auth_notify_interval so large that the time of the next reminder cannot be represented makes the daemon remind at every wake-up). C28_scan_partial: exactly the due authorisations are reminded at a scan; C28_partial: two reminders of one request are auth_notify_interval apart if these times can be represented."
  },
  {
   "property": "C29",
   "status": "proved",
   "theorems": [
    "Pizauth.C29_told",
    "Pizauth.C29_no_oversleep",
    "Pizauth.C29_progress",
    "Pizauth.C29_due"
   ],
   "note": "NotifyAt: an authorisation whose next reminder time the clock cannot represent has none."
  },
  {
   "property": "C30",
   "status": "proved",
   "theorems": [
    "Pizauth.C30_url"
   ],
   "note": "C30_url: name, command and URL of every reminder."
  },
  {
   "property": "C31",
   "status": "proved",
   "theorems": [
    "Pizauth.C31_order",
    "Pizauth.C31_one_at_a_time"
   ],
   "note": "C31_order: what was executed is a subsequence of what was queued; C31_one_at_a_time: no overlap, configured command, first open event."
  },
  {
   "property": "C32",
   "status": "partial",
   "theorems": [
    "Pizauth.C32_partial",
    "Pizauth.C32_all_partial",
    "Pizauth.C32_executed_partial",
    "Pizauth.C32_not"
   ],
   "note": "False as stated: C32_not (an event queued while token_event_cmd is not set may wait forever after a reload which sets it, until the next event). C32_partial, C32_all_partial, C32_executed_partial: holds as long as token_event_cmd stays set."
  },
  {
   "property": "C33",
   "status": "partial",
   "theorems": [
    "Pizauth.C33_cause_partial",
    "Pizauth.C33_lost_partial",
    "Pizauth.C33_not",
    "Pizauth.C33_silent_not"
   ],
   "note": "False as stated: C33_not (token_invalidated is queued although the thread removed nothing, because the handle on the account was lost while transient_error_if_cmd ran) and C33_silent_not (a token without a refresh token is removed by a refresh without an event). C33_cause_partial and C33_lost_partial: these are the only exceptions."
  },
  {
   "property": "C34",
   "status": "proved",
   "theorems": [
    "Pizauth.C34_keeps",
    "Pizauth.C34_exact",
    "Pizauth.C34_again"
   ],
   "note": "C34_keeps, C34_exact, C34_again: for every dump, under the hypothesis that the request is the one being executed."
  },
  {
   "property": "C35",
   "status": "proved",
   "theorems": [
    "Pizauth.C35_only",
    "Pizauth.C35_accounts"
   ],
   "note": "C35_only: an account changes only if the decoded dump records a token for it under the seven security-relevant settings which it has now."
  },
  {
   "property": "C36",
   "status": "proved",
   "theorems": [
    "Pizauth.C36_answer",
    "Pizauth.C36_carried",
    "Pizauth.C36_out_of_range"
   ],
   "note": "Under the hypothesis that decryption undoes encryption and that the clocks can represent the times (Fits); C36_out_of_range: outside this range a token does lose its lifetime."
  },
  {
   "property": "C37",
   "status": "proved",
   "theorems": [
    "Pizauth.C37_no_pending"
   ],
   "note": "States with the same account settings and tokens give the same answer for each nonce and hash order."
  },
  {
   "property": "C38",
   "status": "partial",
   "theorems": [
    "Pizauth.C38_partial",
    "Pizauth.C38_bad",
    "Pizauth.C38_version",
    "Pizauth.C38_not"
   ],
   "note": "False as stated: C38_not (input which does not decode, or has an unknown version, is answered ok:). C38_partial: such input changes nothing; input which is too short or cannot be decrypted is reported as an error and changes nothing."
  },
  {
   "property": "C39",
   "status": "proved",
   "theorems": [
    "Pizauth.C39_roundtrip",
    "Pizauth.C39_prefix"
   ],
   "note": "bincode's fixed-width little-endian encoding, modelled for the types of Dump."
  },
  {
   "property": "C40",
   "status": "proved",
   "theorems": [
    "Pizauth.C40_token",
    "Pizauth.C40_denotes",
    "Pizauth.C40_only"
   ],
   "note": ""
  },
  {
   "property": "C41",
   "status": "proved",
   "theorems": [
    "Pizauth.C41",
    "Pizauth.C41_only",
    "Pizauth.C41_no_panic",
    "Pizauth.C41_write"
   ],
   "note": ""
  },
  {
   "property": "C42",
   "status": "proved",
   "theorems": [
    "Pizauth.C42"
   ],
   "note": ""
  },
  {
   "property": "C43",
   "status": "partial",
   "theorems": [
    "Pizauth.C43_partial",
    "Pizauth.C43_not"
   ],
   "note": "False for accounts: C43_not (a second block for the same account silently replaces the first one). C43_partial: options and account fields."
  },
  {
   "property": "C44",
   "status": "partial",
   "theorems": [
    "Pizauth.C44_partial",
    "Pizauth.C44_Ok",
    "Pizauth.C44_not"
   ],
   "note": "False as stated: C44_not (redirect_uri = HTTPS://... with https_listen = none is accepted, since the check looks at the text, not at the scheme). C44_partial: everything else, with the check as it is; C44_Ok: an accepted configuration satisfies what the model of the daemon assumes of it (given that http://localhost/ is an HTTP URI)."
  },
  {
   "property": "C45",
   "status": "partial",
   "theorems": [
    "Pizauth.C45_not_used",
    "Pizauth.C45_partial",
    "Pizauth.C45_not"
   ],
   "note": "False: login_hint is parsed and then ignored (C45_not; C45_not_used: an account with it is the same as without it). C45_partial: a hint given in auth_uri_fields is in every authorisation URL."
  },
  {
   "property": "C46",
   "status": "proved",
   "theorems": [
    "Pizauth.C46",
    "Pizauth.C46_challenge",
    "Pizauth.C46_rfc7636",
    "Pizauth.C46_fips180"
   ],
   "note": ""
  },
  {
   "property": "C47",
   "status": "proved",
   "theorems": [
    "Pizauth.C47",
    "Pizauth.C47_inj"
   ],
   "note": ""
  },
  {
   "property": "C48",
   "status": "proved",
   "theorems": [
    "Pizauth.C48_show",
    "Pizauth.C48_error",
    "Pizauth.C48_pending",
    "Pizauth.C48_understood",
    "Pizauth.C48_end"
   ],
   "note": "For answers made by the server (C48_understood) and for arbitrary bytes (C48_show, C48_error, C48_pending)."
  },
  {
   "property": "C49",
   "status": "proved",
   "theorems": [
    "Pizauth.C49",
    "Pizauth.C49_state"
   ],
   "note": ""
  },
  {
   "property": "C50",
   "status": "partial",
   "theorems": [
    "Pizauth.C50_partial",
    "Pizauth.C50_not"
   ],
   "note": "False as stated: C50_not (the blank line which ends a request may be arbitrarily long, so accepted requests are unbounded). C50_partial: request line and headers of an accepted request are together smaller than 16 KiB, and nothing else matters."
  },
  {
   "property": "C51",
   "status": "proved",
   "theorems": [
    "Pizauth.C51_lines",
    "Pizauth.C51_no_secrets"
   ],
   "note": "C51_lines: the exact text of the answer, for a wall clock within the representable range; C51_no_secrets: the answer is determined by account names and the times which may be shown."
  },
  {
   "property": "C52",
   "status": "proved",
   "theorems": [
    "Pizauth.C52_base64",
    "Pizauth.C52_inj",
    "Pizauth.C52"
   ],
   "note": ""
  },
  {
   "property": "C53",
   "status": "partial",
   "theorems": [
    "Pizauth.C53_computable",
    "Pizauth.C53_partial",
    "Pizauth.C53_not",
    "Pizauth.C53_no_server",
    "Pizauth.C53_url_partial",
    "Pizauth.C53_not_std"
   ],
   "note": "False as stated: C53_not (white space before https: in redirect_uri makes the code use the HTTP port). C53_partial: holds when the text of the URI begins with the name of its scheme. C53_no_server: after a reload an http redirect URI may belong to no running server."
  },
  {
   "property": "C54",
   "status": "proved",
   "theorems": [
    "Pizauth.C54_blank",
    "Pizauth.C54_comment",
    "Pizauth.C54_write",
    "Pizauth.C54"
   ],
   "note": ""
  },
  {
   "property": "C55",
   "status": "proved",
   "theorems": [
    "Pizauth.C55",
    "Pizauth.C55_unambiguous"
   ],
   "note": ""
  },
  {
   "property": "C56",
   "status": "proved",
   "theorems": [
    "Pizauth.C56",
    "Pizauth.C56_says",
    "Pizauth.C56_order"
   ],
   "note": ""
  },
  {
   "property": "C57",
   "status": "proved",
   "theorems": [
    "Pizauth.C57_cause",
    "Pizauth.C57_gained"
   ],
   "note": "C57_cause: accuracy; C57_gained: completeness."
  },
  {
   "property": "C58",
   "status": "proved",
   "theorems": [
    "Pizauth.C58_threads",
    "Pizauth.C58_closed"
   ],
   "note": "Fairness (Run.Fair) is a hypothesis; fair executions exist (turnRun_fair)."
  },
  {
   "property": "C59",
   "status": "proved",
   "theorems": [
    "Pizauth.C59"
   ],
   "note": "Fair executions; refresh_retry bounded along the execution."
  },
  {
   "property": "C60",
   "status": "proved",
   "theorems": [
    "Pizauth.C60"
   ],
   "note": "Fair executions."
  },
  {
   "property": "C61",
   "status": "proved",
   "theorems": [
    "Pizauth.C61"
   ],
   "note": "Fair executions; notifications configured with a constant interval whose end the clock can represent (cf. C28_not)."
  },
  {
   "property": "C62",
   "status": "proved",
   "theorems": [
    "Pizauth.C62"
   ],
   "note": "Fair executions; token_event_cmd stays set and no event is stranded at the start (cf. C32_not)."
  },
  {
   "property": "C63",
   "status": "proved",
   "theorems": [
    "Pizauth.C63"
   ],
   "note": ""
  },
  {
   "property": "C64",
   "status": "partial",
   "theorems": [
    "Pizauth.C64_partial",
    "Pizauth.C64_not"
   ],
   "note": "False as stated: if the server grants tokens living shorter than refresh_before_expiry the refresher refreshes in a tight loop (C64_not, concrete history). C64_partial: refresh_retry passes after a failed attempt, and a fresh token is refreshed no earlier than its due time."
  },
  {
   "property": "C65",
   "status": "proved",
   "theorems": [
    "Pizauth.C65"
   ],
   "note": "Histories without dump requests. Two-run (noninterference) statement."
  },
  {
   "property": "C66",
   "status": "proved",
   "theorems": [
    "Pizauth.C66"
   ],
   "note": ""
  },
  {
   "property": "C67",
   "status": "proved",
   "theorems": [
    "Pizauth.C67_token",
    "Pizauth.C67_new"
   ],
   "note": "C67_new needs that the configured redirect URIs have hosts which accept a port (HostLaw)."
  },
  {
   "property": "C68",
   "status": "proved",
   "theorems": [
    "Pizauth.C68"
   ],
   "note": ""
  },
  {
   "property": "C69",
   "status": "proved",
   "theorems": [
    "Pizauth.C69",
    "Pizauth.C69_ports"
   ],
   "note": ""
  },
  {
   "property": "C70",
   "status": "proved",
   "theorems": [
    "Pizauth.C70",
    "Pizauth.C70_end",
    "Pizauth.C70_only"
   ],
   "note": ""
  },
  {
   "property": "C71",
   "status": "proved",
   "theorems": [
    "Pizauth.C71"
   ],
   "note": ""
  },
  {
   "property": "C72",
   "status": "proved",
   "theorems": [
    "Pizauth.C72_client",
    "Pizauth.C72_usage",
    "Pizauth.C72_server",
    "Pizauth.C72_info",
    "Pizauth.C72_any_name",
    "Pizauth.C72_plain_name"
   ],
   "note": "getopts 0.2.21 is modelled (Model/Cli.lean); arguments which are not UTF-8 make env::args panic and are left out."
  },
  {
   "property": "C73",
   "status": "proved",
   "theorems": [
    "Pizauth.C73_code",
    "Pizauth.C73_success",
    "Pizauth.C73_shutdown",
    "Pizauth.C73_dump",
    "Pizauth.C73_message",
    "Pizauth.C73_one",
    "Pizauth.C73_show"
   ],
   "note": "`info` is not covered here. Writing to stdout is assumed to succeed."
  },
  {
   "property": "C74",
   "status": "partial",
   "theorems": [
    "Pizauth.C74_partial",
    "Pizauth.C74_dump_partial",
    "Pizauth.C74_not"
   ],
   "note": "False as stated, see C74_not: if the clock shows a time before 1970, `dump` gets no answer, prints nothing and exits with 0. C74_partial: all other commands are answered (if http URLs have hosts); C74_dump_partial: what dump prints, if not empty, is a dump."
  },
  {
   "property": "C75",
   "status": "partial",
   "theorems": [
    "Pizauth.C75_partial",
    "Pizauth.C75_running",
    "Pizauth.C75_refused",
    "Pizauth.C75_not"
   ],
   "note": "C75_not: two servers which start at the same time, with the socket file of an earlier server present, may both serve, and clients reach one of them only. Proved: if servers are started one after the other, at most one serves (C75_partial); a server which serves undisturbed is never displaced, and later ones exit with 1, in whatever order things happen (C75_running, C75_refused). Missing: servers starting at the same time. Removal of the file by others is excluded."
  },
  {
   "property": "C76",
   "status": "partial",
   "theorems": [
    "Pizauth.C76_partial",
    "Pizauth.C76_early",
    "Pizauth.C76_not"
   ],
   "note": "C76_not: a daemon reports 0 before it binds its ports and its socket, so it may report 0 without ever serving. Proved: status 1 is reported only if it does not serve, and everything which fails before the process becomes a daemon is reported."
  },
  {
   "property": "C77",
   "status": "partial",
   "theorems": [
    "Pizauth.C77_partial",
    "Pizauth.C77_not"
   ],
   "note": "C77_not: the thread which touches the file is started before the process becomes a daemon, and does not survive that, so the socket file of a daemon is never touched. Proved for servers which were started with -d; that the thread runs when it is due is assumed."
  },
  {
   "property": "C78",
   "status": "proved",
   "theorems": [
    "Pizauth.C78",
    "Pizauth.C78_foreign"
   ],
   "note": "Proved for the model of the file system described in Model/Startup.lean; symbolic links are followed."
  },
  {
   "property": "C79",
   "status": "partial",
   "theorems": [
    "Pizauth.C79_partial",
    "Pizauth.C79_not"
   ],
   "note": "C79_not: if $XDG_CONFIG_HOME is set and has no pizauth.conf, then $HOME/.config/pizauth.conf is not used. Proved for all other cases."
  },
  {
   "property": "C80",
   "status": "proved",
   "theorems": [
    "Pizauth.C80_holder",
    "Pizauth.C80_one",
    "Pizauth.C80_progress",
    "Pizauth.C80_sections"
   ],
   "note": "About Model/Locks.lean, which has the locking and waiting operations of all threads and nothing else. `status` alone writes to its client while it holds the global lock, see C81."
  },
  {
   "property": "C81",
   "status": "partial",
   "theorems": [
    "Pizauth.C81_not",
    "Pizauth.C81_partial"
   ],
   "note": "C81_not: `status` holds the global lock while it writes its answer, so a client which does not read it stops everything. Proved for executions without `status`: whoever holds a lock is about to release it."
  },
  {
   "property": "C82",
   "status": "proved",
   "theorems": [
    "Pizauth.C82",
    "Pizauth.C82_replaced",
    "Pizauth.C82_shown"
   ],
   "note": "C82 starts at any moment at which the account holds a token which is not being refreshed; C82_replaced and C82_shown start when a token is stored. `GrantedIn` names the answer (or the restored dump) in the log written since."
  },
  {
   "property": "C83",
   "status": "partial",
   "theorems": [
    "Pizauth.C83_partial",
    "Pizauth.C83_not"
   ],
   "note": "C83_partial needs that only one callback carried the code; C83_not is an execution in which a browser loads the redirect page twice, and the second thread sends the code again after the first one has stored its token."
  },
  {
   "property": "C84",
   "status": "partial",
   "theorems": [
    "Pizauth.C84_partial",
    "Pizauth.C84_transient",
    "Pizauth.C84_time",
    "Pizauth.C84_not_nul",
    "Pizauth.C84_not_timeout",
    "Pizauth.C84_not_run"
   ],
   "note": "C84_partial needs that $SHELL is set and can be started and that no string contains NUL. C84_not_nul: messages with NUL do not reach error_notify_cmd. C84_not_timeout: token_event_cmd has 30 seconds, pizauth.conf(5) says 10. C84_not_run: a transient_error_if_cmd which cannot be run counts as a permanent error."
  },
  {
   "property": "C85",
   "status": "proved",
   "theorems": [
    "Pizauth.C85",
    "Pizauth.C85_unique",
    "Pizauth.C85_token",
    "Pizauth.C85_invalid"
   ],
   "note": "Model/Json.lean is the part of serde_json which the program uses; Spec/Json.lean is the grammar of RFC 8259 as an inductive relation. The reader is sound and complete for it. Numbers which are too large for a float are errors in serde_json and numbers here."
  },
  {
   "property": "C86",
   "status": "partial",
   "theorems": [
    "Pizauth.C86_partial",
    "Pizauth.C86_stopped",
    "Pizauth.C86_json",
    "Pizauth.C86_json_stopped",
    "Pizauth.C86_running",
    "Pizauth.C86_not",
    "Pizauth.C86_not_conf"
   ],
   "note": "C86_partial: the output for people, if the answer is that of a server of this version. C86_json, C86_json_stopped, C86_running: `-j`, for all answers. C86_not: any other JSON answer (a server of another version) can make `info` panic; C86_not_conf: without a configuration file nothing is printed."
  },
  {
   "property": "C87",
   "status": "proved",
   "theorems": [
    "Pizauth.C87",
    "Pizauth.C87_unique",
    "Pizauth.C87_post",
    "Pizauth.C87_url",
    "Pizauth.C87_callback",
    "Pizauth.C87_harmless"
   ],
   "note": "Model/Form.lean is the part of form_urlencoded which is used; Spec/Form.lean says which texts are forms. C87: what is written is a form for these pairs and for no others; C87_post, C87_url: for the POSTs and URLs of reachable states; C87_callback: reading; C87_harmless: the characters which occur."
  },
  {
   "property": "C88",
   "status": "partial",
   "theorems": [
    "Pizauth.C88_fixed",
    "Pizauth.C88_partial",
    "Pizauth.C88_not"
   ],
   "note": "C88_fixed: one of four texts. C88_partial: answers with status 200 are responses. C88_not: those with 400 and 404 lack the blank after the status code, which the grammar of RFC 9112 (and RFC 2616) has."
  },
  {
   "property": "C89",
   "status": "proved",
   "theorems": [
    "Pizauth.C89",
    "Pizauth.C89_never",
    "Pizauth.C89_restore",
    "Pizauth.C89_accounts"
   ],
   "note": "Spec/Life.lean lists the changes (`Change`). C89: there are no others; C89_never, C89_restore: two consequences; C89_accounts: which accounts there are."
  },
  {
   "property": "C90",
   "status": "proved",
   "theorems": [
    "Pizauth.C90",
    "Pizauth.C90_within"
   ],
   "note": "For threads which have the lock operations of Model/Locks.lean and arbitrary computations in between. C90: the states in which no lock is held; C90_within: all states. Readings of the clock are arbitrary here (a section of the other machine may read several times)."
  },
  {
   "property": "C91",
   "status": "proved",
   "theorems": [
    "Pizauth.C91",
    "Pizauth.C91_idle"
   ],
   "note": "The state made of the random bytes must not be one for which another account waits, the clock must be able to represent the token's expiry, and http URLs must have hosts (HostLaw). C91_idle: a daemon which is serving a client can finish this."
  },
  {
   "property": "C92",
   "status": "proved",
   "theorems": [
    "Pizauth.C92",
    "Pizauth.C92_main"
   ],
   "note": "For operations of threads as modelled in Model/Server.lean (C80 and C90 relate them to locks). C92: worker threads; C92_main: the main thread."
  },
  {
   "property": "C93",
   "status": "proved",
   "theorems": [
    "Pizauth.C93",
    "Pizauth.C93_before_expiry"
   ],
   "note": "The turns include the time for which a thread waits for a lock. The clock moves in steps of at most δ, and gets past the time in question. C93_before_expiry: the clock can represent the times in question, and the setting is not changed by a reload."
  },
  {
   "property": "C94",
   "status": "proved",
   "theorems": [
    "Pizauth.C94"
   ],
   "note": "auth_notify_cmd is set, and auth_notify_interval not changed by a reload; the clock goes on (it must pass the time in question by 2·δ)."
  },
  {
   "property": "C95",
   "status": "proved",
   "theorems": [
    "Pizauth.C95_client",
    "Pizauth.C95_browser"
   ],
   "note": "A client which connects and does not finish its request is not modelled as connected. C95_browser: if http URLs have hosts (HostLaw)."
  },
  {
   "property": "C96",
   "status": "partial",
   "theorems": [
    "Pizauth.C96_partial",
    "Pizauth.C96_total",
    "Pizauth.C96_accepts",
    "Pizauth.C96_rejects",
    "Pizauth.C96_not"
   ],
   "note": "Partial: messages about times have no position (C96_not). The texts of syntax errors and of URL errors are parameters. Positions are in characters."
  },
  {
   "property": "C97",
   "status": "proved",
   "theorems": [
    "Pizauth.C97",
    "Pizauth.C97_verifiers"
   ],
   "note": "dump and restore are excluded. The environment of the other execution may have another hash function, so that verifiers can differ while their hashes do not; C97_verifiers shows that there always is one."
  },
  {
   "property": "C98",
   "status": "partial",
   "theorems": [
    "Pizauth.C98_dump",
    "Pizauth.C98_restore",
    "Pizauth.C98_round_trip",
    "Pizauth.C98_one_reading",
    "Pizauth.C98_sleep",
    "Pizauth.C98_scan_partial",
    "Pizauth.C98_not"
   ],
   "note": "C98_not: if expiry minus refresh_before_expiry is not representable, refresh_at falls back on a reading of the clock that is later than the one it is compared with. C98_scan_partial: all other tokens."
  },
  {
   "property": "C99",
   "status": "proved",
   "theorems": [
    "Pizauth.C99_total",
    "Pizauth.C99_info",
    "Pizauth.C99_warn",
    "Pizauth.C99_request",
    "Pizauth.C99_command",
    "Pizauth.C99_answer",
    "Pizauth.C99_http",
    "Pizauth.C99_exchange",
    "Pizauth.C99_invalidated",
    "Pizauth.C99_transient",
    "Pizauth.C99_errors",
    "Pizauth.C99_browser",
    "Pizauth.C99_levels",
    "Pizauth.C99_secrets",
    "Pizauth.C99_tokens"
   ],
   "note": "Proved of Model/Messages.lean, which adds messages to the histories of Model/World.lean. Messages about the outcome of commands other than transient_error_if_cmd, and of reading from and writing to sockets, are not modelled."
  },
  {
   "property": "C100",
   "status": "proved",
   "theorems": [
    "Pizauth.C100",
    "Pizauth.C100_unique",
    "Pizauth.C100_exact",
    "Pizauth.C100_state"
   ],
   "note": "Proved of the model of form_urlencoded::parse in Model/Form.lean. The url crate is trusted to find the query in the request line."
  },
  {
   "property": "C101",
   "status": "proved",
   "theorems": [
    "Pizauth.C101",
    "Pizauth.C101_queued"
   ],
   "note": "The start is a moment at which no event is stranded (C32). The assumption about the event thread is the one of C93 for the other threads."
  },
  {
   "property": "C102",
   "status": "proved",
   "theorems": [
    "Pizauth.C102",
    "Pizauth.C102_reload",
    "Pizauth.C102_dump_restore",
    "Pizauth.C102_in_time"
   ],
   "note": "Combines C47, C48, C51, C36, C95 and the claims about single requests. `info` is C86, `shutdown` C70. After dump fails the exit code is 0 with no output (C74)."
  },
  {
   "property": "C103",
   "status": "proved",
   "theorems": [
    "Pizauth.C103",
    "Pizauth.C103_none",
    "Pizauth.C103_readable",
    "Pizauth.C103_shown",
    "Pizauth.C103_status"
   ],
   "note": "The code calls chrono, which is modelled from its documentation and source as remembered (Model/Calendar.lean); everything else is proved for any function in its place. Also gives the exact condition under which status crashes (C08_exact, C08_years)."
  },
  {
   "property": "C104",
   "status": "proved",
   "theorems": [
    "Pizauth.C104",
    "Pizauth.C104_serves",
    "Pizauth.C104_reads",
    "Pizauth.C104_accepts",
    "Pizauth.C104_blocked"
   ],
   "note": "The queue of connections is unbounded in the model. `C104_blocked` describes what the code does (`read_to_end` without a timeout in the main thread), it is not a violation of a documented promise."
  },
  {
   "property": "C105",
   "status": "proved",
   "theorems": [
    "Pizauth.C105",
    "Pizauth.C105_same",
    "Pizauth.C105_answered",
    "Pizauth.C105_closed",
    "Pizauth.C105_waits"
   ],
   "note": "Model/HttpStream.lean is parse_get on a stream of which a part has arrived; with the end of the stream it equals parseGet of Model/Http.lean (C105_closed)."
  },
  {
   "property": "C106",
   "status": "proved",
   "theorems": [
    "Pizauth.C106",
    "Pizauth.C106_ports",
    "Pizauth.C106_key",
    "Pizauth.C106_fails",
    "Pizauth.C106_fails",
    "Pizauth.C106_off",
    "Pizauth.C106_on",
    "Pizauth.C106_info"
   ],
   "note": "serverBoot ends where the other theorems begin (IsInit): with C106 they hold for every server which starts. Needs that http://localhost/ is an http URI."
  },
  {
   "property": "C107",
   "status": "proved",
   "theorems": [
    "Pizauth.C107",
    "Pizauth.C107_length",
    "Pizauth.C107_altered",
    "Pizauth.C107_restore",
    "Pizauth.C107_dump_restore",
    "Pizauth.C107_rfc8439",
    "Pizauth.C107_key"
   ],
   "note": "Model/ChaCha.lean is a concrete ChaCha20Poly1305, checked against the examples of RFC 8439; the hypothesis CryptLaw of C36 and C102 is proved for it. That other changes to a dump are noticed holds only with high probability and is not a theorem."
  },
  {
   "property": "C108",
   "status": "proved",
   "theorems": [
    "Pizauth.C108_host",
    "Pizauth.C108_read",
    "Pizauth.C108_delivered",
    "Pizauth.C108",
    "Pizauth.C108_shadowed",
    "Pizauth.C108_login",
    "Pizauth.C108_possible",
    "Pizauth.C108_standard",
    "Pizauth.C108_added"
   ],
   "note": "Model/UrlStd.lean models Url::parse, parse_with_params and to_string for http and https from the URL standard; UTS 46 and IPv6 parsing are parameters with the hypothesis that their results are canonical; C116 gives the IPv6 part. The hypothesis HostLaw of C10, C53, C67, C74, C91, C95 and C102 is proved for it. C53_not_std shows that C53 is violated with the real standard."
  },
  {
   "property": "C109",
   "status": "proved",
   "theorems": [
    "Pizauth.C109",
    "Pizauth.C109_token",
    "Pizauth.C109_saved",
    "Pizauth.C109_backup",
    "Pizauth.C109_revoked"
   ],
   "note": "About executions (Run). C109 itself is for any invariant P; C109_backup combines C109_saved with C36. That the command runs pizauth dump is the user's configuration. Tokens which vanish without an event (C33) stay in the last dump."
  },
  {
   "property": "C110",
   "status": "proved",
   "theorems": [
    "Pizauth.C110_office",
    "Pizauth.C110_microsoft",
    "Pizauth.C110_gmail",
    "Pizauth.C110_miele",
    "Pizauth.C110_remote",
    "Pizauth.C110_notify",
    "Pizauth.C110_times",
    "Pizauth.C110_off"
   ],
   "note": "The documented files are written out in Spec/Examples.lean; that their URLs are URLs is a hypothesis, checked for the URL standard beside the theorems. C110_off is about the change log's http_listen=off."
  },
  {
   "property": "C111",
   "status": "proved",
   "theorems": [
    "Pizauth.C111_text",
    "Pizauth.C111",
    "Pizauth.C111_office",
    "Pizauth.C111_gmail"
   ],
   "note": "C111_text: adding parameters to any HTTP(S) URL in normal form without fragment. C111: what `pizauth show` prints. C111_office, C111_gmail: literally, from the documented configuration file. The URL library is the standard's of C108."
  },
  {
   "property": "C112",
   "status": "proved",
   "theorems": [
    "Pizauth.C112",
    "Pizauth.C112_log",
    "Pizauth.C112_restore"
   ],
   "note": "C112: two runs with the same actions but other dates; C112_log: no difference at all without `status`; C112_restore: the same dump at two dates. If `status` is asked for, dates are assumed to be writable (otherwise it panics, C103)."
  },
  {
   "property": "C113",
   "status": "partial",
   "theorems": [
    "Pizauth.C113_form",
    "Pizauth.C113_where",
    "Pizauth.C113_last",
    "Pizauth.C113_partial",
    "Pizauth.C113_kept",
    "Pizauth.C113_secret",
    "Pizauth.C113_not"
   ],
   "note": "Partial: the last sentence is false (C113_not): the answer of a server to which the token server redirects counts, even if that connection is not encrypted. C113_partial is for servers which do not redirect; C113_form, C113_where, C113_kept and C113_secret are the rest, C113_last says which answer counts. Model/Ureq.lean is the part of ureq 2.12.1 which the program uses."
  },
  {
   "property": "C114",
   "status": "proved",
   "theorems": [
    "Pizauth.C114",
    "Pizauth.C114_minutes"
   ],
   "note": "Timed counterpart of C58 and C95 for logins. The times δ and T are parameters; C114_minutes has the numbers of the program."
  },
  {
   "property": "C115",
   "status": "proved",
   "theorems": [
    "Pizauth.C115"
   ],
   "note": "Timed counterpart of C60."
  },
  {
   "property": "C116",
   "status": "proved",
   "theorems": [
    "Pizauth.C116",
    "Pizauth.C116_unique",
    "Pizauth.C116_text",
    "Pizauth.C116_same",
    "Pizauth.C116_host",
    "Pizauth.C116_canonical"
   ],
   "note": "Model/Ipv6.lean follows the IPv6 parser and serialiser of the URL standard (crate url); Spec/Ipv6.lean states the RFCs as relations. With it, C108 is left with UTS 46 as a parameter only (C116_canonical)."
  },
  {
   "property": "C117",
   "status": "proved",
   "theorems": [
    "Pizauth.C117",
    "Pizauth.C117_domain",
    "Pizauth.C117_unique",
    "Pizauth.C117_same",
    "Pizauth.C117_written"
   ],
   "note": "Spec/Ipv4.lean states the IPv4 parser of the URL standard as relations. C117_domain is about domains in ASCII without `xn--`; C117_written about all hosts (what UTS 46 makes of international domains is a parameter)."
  },
  {
   "property": "C118",
   "status": "proved",
   "theorems": [
    "Pizauth.C118_refresher",
    "Pizauth.C118_notifier",
    "Pizauth.C118_eventer"
   ],
   "note": "C16 says until when the refresher and the notifier plan to wait. Spurious wake-ups of condition variables make no difference, since the code checks the flag and the time again."
  },
  {
   "property": "C119",
   "status": "partial",
   "theorems": [
    "Pizauth.C119_partial",
    "Pizauth.C119_not"
   ],
   "note": "Violated: C119_not. The refresher looks at the tokens again as soon as it has started the thread, and until that thread has noted that the token is being refreshed, the token is still due and the time until which the refresher plans to wait is in the past; so it starts another thread, and so on, without bound. C119_partial: as soon as one of these threads has taken its first step, each of the others ends with its first step without changing or sending anything. So the superfluous threads cost only time (C12: only one request is sent)."
  },
  {
   "property": "C120",
   "status": "partial",
   "theorems": [
    "Pizauth.C120_saved",
    "Pizauth.C120_partial",
    "Pizauth.C120_not"
   ],
   "note": "Violated: C120_not. The service is of type simple, so `pizauth restore` of ExecStartPost can connect before the server listens; it then fails (its exit status is ignored), the server runs without the tokens, and the next stop overwrites the state file with a dump without them; if the service is stopped before the server listens, the state file is overwritten with nothing. C120_saved: what is saved is what the server answers to `dump`: nothing, or a dump it made for this request. C120_partial: if the server serves when `pizauth restore` connects, it receives the dump which was saved, whatever happened in between (except stopping the service), and every account which had a token when the dump was made, has none now, and has the same settings, gets this token. Encrypting and decrypting the file are taken to undo each other."
  },
  {
   "property": "C121",
   "status": "partial",
   "theorems": [
    "Pizauth.C121_partial",
    "Pizauth.C121_fish",
    "Pizauth.C121_not",
    "Pizauth.C121_commands",
    "Pizauth.C121_words",
    "Pizauth.C121_options_not",
    "Pizauth.C121_path"
   ],
   "note": "Violated: C121_not (an account which is indented is not offered; of `account \"a\"{` the whole line is offered; a configuration file with a colon in its path is not found), C121_options_not (`-d` is offered again after `-d`, though no such command line is accepted). C121_partial: in the layout of the manual (every account begins with a line `account \"name\" {`, the lines of its body are indented, literals do not extend over several lines) the file is parsed as intended and exactly the accounts are offered. C121_fish: in this layout the fish shell, which removes the quotes, offers exactly the names (without tabs). C121_path: the configuration file is found if its path has no colon (and does not begin with a space). C121_commands: exactly the commands which can be accepted are offered. C121_words: every other word which is offered, except the options of server, is part of an accepted command line. `compgen` and the shell's quoting are not modelled."
  },
  {
   "property": "C122",
   "status": "proved",
   "theorems": [
    "Pizauth.C122_ids",
    "Pizauth.C122_u128",
    "Pizauth.C122_fails"
   ],
   "note": "C122_ids: the bound k + n(k+2) for the counter and for all identifiers. C122_u128: hence below 2^128 for fewer than 2^64 actions, with configurations of at most 2^62 accounts. C122_fails: the number of failures on record is at most the number of actions, so below 2^64 for fewer than 2^64 actions."
  },
  {
   "property": "C123",
   "status": "proved",
   "theorems": [
    "Pizauth.C123_world",
    "Pizauth.C123_once",
    "Pizauth.C123_free",
    "Pizauth.C123_reminder",
    "Pizauth.C123_late"
   ],
   "note": "C123_once: the commands which were started and those which are waiting are together, with multiplicity, those which were asked for. C123_reminder: what a reminder is about. C123_late: it may come after the user has completed the authorisation. C123_free: whatever can happen in Model/World.lean can happen while commands are running, for the notifier after it has started its threads. C123_world: nothing else happens."
  },
  {
   "property": "C124",
   "status": "proved",
   "theorems": [
    "Pizauth.C124",
    "Pizauth.C124_free",
    "Pizauth.C124_answered",
    "Pizauth.C124_waits",
    "Pizauth.C124_threads"
   ],
   "note": "C124: one request per browser, handled as all the browser sent. C124_answered: it can be handled as soon as enough has arrived. C124_free: nothing else waits. C124_waits and C124_threads: there is no timeout and no limit. The TLS handshake is not modelled."
  },
  {
   "property": "C125",
   "status": "proved",
   "theorems": [
    "Pizauth.C125",
    "Pizauth.C125_browser",
    "Pizauth.C125_client",
    "Pizauth.C125_other",
    "Pizauth.C125_command"
   ],
   "note": "C125: C104, C123 and C124 at the same time. C125_browser, C125_client, C125_other, C125_command: who need not wait for whom. That clients wait for each other is C81."
  },
  {
   "property": "C126",
   "status": "proved",
   "theorems": [
    "Pizauth.C126",
    "Pizauth.C126_said",
    "Pizauth.C126_total",
    "Pizauth.C126_stderr"
   ],
   "note": "C126: each command which was started is running or done with. C126_said: the errors are those of the commands which failed, in this order. C126_total: nothing depends on the outcomes. C126_stderr: what a command prints to stderr is not logged, though the texts speak of stderr."
  },
  {
   "property": "C127",
   "status": "proved",
   "theorems": [
    "Pizauth.C127",
    "Pizauth.C127_said",
    "Pizauth.C127_over",
    "Pizauth.C127_other",
    "Pizauth.C127_total",
    "Pizauth.C127_time"
   ],
   "note": "C127: which processes there were, when they were killed. C127_said: the errors are those of the commands which failed, in this order. C127_over: the event thread goes on. C127_other: nothing else waits. C127_total: this is compatible with everything else which can happen. C127_time: with C101, without its assumption about commands."
  },
  {
   "property": "C128",
   "status": "proved",
   "theorems": [
    "Pizauth.C128",
    "Pizauth.C128_over",
    "Pizauth.C128_other",
    "Pizauth.C128_time",
    "Pizauth.C128_total",
    "Pizauth.C128_token"
   ],
   "note": "C128: which processes there were, when they were killed, which results were taken for success. C128_over: the thread goes on. C128_other: nothing else waits. C128_total: both results are possible. C128_token: what becomes of the token (with C17). C128_time: with C115, without its assumption about commands."
  }
 ]
}