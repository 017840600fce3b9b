import Verif.Proof.Config
import Verif.Props.AuthUrl

/-!
# C42–C45, C56: from the configuration file to the configuration
-/

namespace Pizauth

theorem fromStr_ok {E : Env} {file : String} {c : Config} (h : Config.fromStr E file = .ok c) :
    ∃ l, parseConfigText file = some l ∧ Config.fromAst E l = .ok c := by
  unfold Config.fromStr at h
  split at h
  · cases h
  · rename_i l hl; exact ⟨l, hl, h⟩

/-! ## C56 -/

/-- **C56.** Exactly the valid files are accepted. -/
theorem C56 (E : Env) (file : String) :
    (∃ c, Config.fromStr E file = .ok c) ↔ ∃ l, parseConfigText file = some l ∧ ConfigValid E l := by
  constructor
  · rintro ⟨c, h⟩
    obtain ⟨l, h1, h2⟩ := fromStr_ok h
    exact ⟨l, h1, (fromAst_ok h2).1⟩
  · rintro ⟨l, h1, h2⟩
    obtain ⟨c, hc⟩ := fromAst_accepts h2
    exact ⟨c, by simp [Config.fromStr, h1, hc]⟩

/-- **C56.** The configuration is what the file says. -/
theorem C56_says {E : Env} {file : String} {c : Config} (h : Config.fromStr E file = .ok c) :
    ∃ l, parseConfigText file = some l ∧ ConfigSays l c := by
  obtain ⟨l, h1, h2⟩ := fromStr_ok h
  exact ⟨l, h1, (fromAst_ok h2).2.1⟩

/-- What a file says determines an account. -/
theorem FieldsSay.unique {fs : List AccountField} (hn : (fs.map AccountField.key).Nodup) {a b : Account}
    (ha : FieldsSay fs a) (hb : FieldsSay fs b) (hname : a.name = b.name) : a = b := by
  have e1 : a.authUri = b.authUri := by
    obtain ⟨s, m, e⟩ := ha.authUri; obtain ⟨s', m', e'⟩ := hb.authUri
    cases field_unique hn m m' rfl; rw [e, e']
  have e2 : a.authUriFields = b.authUriFields := by
    rcases ha.authUriFields with ⟨s, m, e⟩ | ⟨m, e⟩ <;> rcases hb.authUriFields with ⟨s', m', e'⟩ | ⟨m', e'⟩
    · cases field_unique hn m m' rfl; rw [e, e']
    · exact absurd (List.mem_map_of_mem (f := AccountField.key) m) m'
    · exact absurd (List.mem_map_of_mem (f := AccountField.key) m') m
    · rw [e, e']
  have e3 : a.clientId = b.clientId := by
    obtain ⟨s, m, e⟩ := ha.clientId; obtain ⟨s', m', e'⟩ := hb.clientId
    cases field_unique hn m m' rfl; rw [e, e']
  have e4 : a.clientSecret = b.clientSecret := by
    rcases ha.clientSecret with ⟨s, m, e⟩ | ⟨m, e⟩ <;> rcases hb.clientSecret with ⟨s', m', e'⟩ | ⟨m', e'⟩
    · cases field_unique hn m m' rfl; rw [e, e']
    · exact absurd (List.mem_map_of_mem (f := AccountField.key) m) m'
    · exact absurd (List.mem_map_of_mem (f := AccountField.key) m') m
    · rw [e, e']
  have e5 : a.redirectUri = b.redirectUri := redirect_unique hn ha.redirectUri hb.redirectUri
  have e6 : a.refreshAtLeast = b.refreshAtLeast := by
    rcases ha.refreshAtLeast with ⟨s, d, m, t, e⟩ | ⟨m, e⟩ <;>
      rcases hb.refreshAtLeast with ⟨s', d', m', t', e'⟩ | ⟨m', e'⟩
    · cases field_unique hn m m' rfl; rw [t] at t'; cases t'; rw [e, e']
    · exact absurd (List.mem_map_of_mem (f := AccountField.key) m) m'
    · exact absurd (List.mem_map_of_mem (f := AccountField.key) m') m
    · rw [e, e']
  have e7 : a.refreshBeforeExpiry = b.refreshBeforeExpiry := by
    rcases ha.refreshBeforeExpiry with ⟨s, d, m, t, e⟩ | ⟨m, e⟩ <;>
      rcases hb.refreshBeforeExpiry with ⟨s', d', m', t', e'⟩ | ⟨m', e'⟩
    · cases field_unique hn m m' rfl; rw [t] at t'; cases t'; rw [e, e']
    · exact absurd (List.mem_map_of_mem (f := AccountField.key) m) m'
    · exact absurd (List.mem_map_of_mem (f := AccountField.key) m') m
    · rw [e, e']
  have e8 : a.refreshRetry = b.refreshRetry := by
    rcases ha.refreshRetry with ⟨s, d, m, t, e⟩ | ⟨m, e⟩ <;>
      rcases hb.refreshRetry with ⟨s', d', m', t', e'⟩ | ⟨m', e'⟩
    · cases field_unique hn m m' rfl; rw [t] at t'; cases t'; rw [e, e']
    · exact absurd (List.mem_map_of_mem (f := AccountField.key) m) m'
    · exact absurd (List.mem_map_of_mem (f := AccountField.key) m') m
    · rw [e, e']
  have e9 : a.scopes = b.scopes := by
    rcases ha.scopes with ⟨s, m, e⟩ | ⟨m, e⟩ <;> rcases hb.scopes with ⟨s', m', e'⟩ | ⟨m', e'⟩
    · cases field_unique hn m m' rfl; rw [e, e']
    · exact absurd (List.mem_map_of_mem (f := AccountField.key) m) m'
    · exact absurd (List.mem_map_of_mem (f := AccountField.key) m') m
    · rw [e, e']
  have e10 : a.tokenUri = b.tokenUri := by
    obtain ⟨s, m, e⟩ := ha.tokenUri; obtain ⟨s', m', e'⟩ := hb.tokenUri
    cases field_unique hn m m' rfl; rw [e, e']
  cases a; cases b
  simp_all

/-- **C56.** So it does not matter in which order the fields of an account are given. -/
theorem C56_order {E : Env} {n : String} {fs fs' : List AccountField} (hp : fs.Perm fs') {a : Account}
    (h : Account.fromFields E n fs = .ok a) : Account.fromFields E n fs' = .ok a := by
  have h1 := fromFields_ok h
  have hk : (fs.map AccountField.key).Perm (fs'.map AccountField.key) := hp.map _
  have hv : FieldsValid E fs' := by
    obtain ⟨v1, v2, v3, v4, v5, v6⟩ := h1.valid
    exact ⟨hk.nodup_iff.mp v1, fun f hf => v2 f (hp.mem_iff.mpr hf), hk.mem_iff.mp v3, hk.mem_iff.mp v4,
      hk.mem_iff.mp v5, fun x hx kvs hkv => v6 x (hp.mem_iff.mpr hx) kvs (hp.mem_iff.mpr hkv)⟩
  obtain ⟨a', ha'⟩ := fromFields_accepts n hv
  have h2 := fromFields_ok ha'
  have hs : FieldsSay fs' a := by
    obtain ⟨s1, s2, s3, s4, s5, s6, s7, s8, s9, s10⟩ := h1.says
    simp only [hp.mem_iff, hk.mem_iff] at s1 s2 s3 s4 s5 s6 s7 s8 s9 s10
    exact ⟨s1, s2, s3, s4, s5, s6, s7, s8, s9, s10⟩
  rw [ha', FieldsSay.unique hv.once h2.says hs (by rw [h1.name, h2.name])]

/-! ## C42 -/

theorem effective_of {l : List TopLevel} {fs : List AccountField} {own : String → AccountField}
    {glob : String → TopLevel} {k : Kind} {dflt v : Dur} {o g : Option Dur}
    (ho : (∃ t d, own t ∈ fs ∧ timeStrToDuration t = .ok d ∧ o = some d) ∨ (k ∉ fs.map AccountField.key ∧ o = none))
    (hg : TimeOpt l glob k g) (hv : v = (o.or g).getD dflt) : Effective l fs own glob k dflt v := by
  subst hv
  rcases ho with ⟨t, d, m, ht, rfl⟩ | ⟨m, rfl⟩
  · exact .inl ⟨t, m, ht⟩
  · rcases hg with ⟨t, d, m', ht, rfl⟩ | ⟨m', rfl⟩
    · exact .inr (.inl ⟨m, t, m', ht⟩)
    · exact .inr (.inr ⟨m, m', rfl⟩)

/-- **C42.** -/
theorem C42 {E : Env} {file : String} {c : Config} (h : Config.fromStr E file = .ok c) {n : String} {a : Account}
    (ha : (n, a) ∈ c.accounts) : ∃ l fs, parseConfigText file = some l ∧ lastBlock l n = some fs ∧
      Effective l fs .refreshAtLeast .refreshAtLeast .REFRESH_AT_LEAST (90 * 60 * 1000000000) (a.effRefreshAtLeast c) ∧
      Effective l fs .refreshBeforeExpiry .refreshBeforeExpiry .REFRESH_BEFORE_EXPIRY (90 * 1000000000)
        (a.effRefreshBeforeExpiry c) ∧
      Effective l fs .refreshRetry .refreshRetry .REFRESH_RETRY (40 * 1000000000) (a.effRefreshRetry c) := by
  obtain ⟨l, h1, hs⟩ := C56_says h
  obtain ⟨fs, h2, _, h3⟩ := hs.accounts _ ha
  refine ⟨l, fs, h1, h2, effective_of h3.refreshAtLeast hs.refreshAtLeast ?_,
    effective_of h3.refreshBeforeExpiry hs.refreshBeforeExpiry ?_, effective_of h3.refreshRetry hs.refreshRetry ?_⟩
  · simp only [Account.effRefreshAtLeast, refreshAtLeastDefault, secs, nsPerSec, Nat.reduceMul]
  · simp only [Account.effRefreshBeforeExpiry, refreshBeforeExpiryDefault, secs, nsPerSec, Nat.reduceMul]
  · simp only [Account.effRefreshRetry, refreshRetryDefault, secs, nsPerSec, Nat.reduceMul]

/-! ## C43 -/

/-- **C43**, for options and account fields. -/
theorem C43_partial {E : Env} {file : String} {c : Config} (h : Config.fromStr E file = .ok c) :
    ∃ l, parseConfigText file = some l ∧ (optKeys l).Nodup ∧
      ∀ n fs, .account n fs ∈ l → (fs.map AccountField.key).Nodup := by
  obtain ⟨l, h1, h2⟩ := fromStr_ok h
  have hv := (fromAst_ok h2).1
  refine ⟨l, h1, hv.once, ?_⟩
  intro n fs hm
  refine (hv.blocks (unescapeStr n, fs) ?_).once
  clear h1 h2 hv h
  induction l with
  | nil => cases hm
  | cons t l ih =>
    rcases List.mem_cons.mp hm with rfl | hm'
    · simp [acctBlocks]
    · cases t <;> simp [acctBlocks, ih hm']

/-! ## C44 -/

/-- **C44**, going by the beginning of the text of a redirect URI (rather than its scheme). -/
theorem C44_partial {E : Env} (hl : IsHttpUri E "http://localhost/") {file : String} {c : Config}
    (h : Config.fromStr E file = .ok c) :
    c.accounts ≠ [] ∧ (c.httpListen.isSome ∨ c.httpsListen.isSome) ∧
    ∀ p ∈ c.accounts, IsHttpUri E p.2.authUri ∧ IsHttpUri E p.2.redirectUri ∧ IsHttpUri E p.2.tokenUri ∧
      (BeginsWith p.2.redirectUri "https" → c.httpsListen.isSome) ∧
      (¬ BeginsWith p.2.redirectUri "https" → BeginsWith p.2.redirectUri "http" → c.httpListen.isSome) := by
  obtain ⟨l, h1, h2⟩ := fromStr_ok h
  obtain ⟨hv, hs, ha⟩ := fromAst_ok h2
  have hok := fromAst_Ok hl h2
  refine ⟨hok.nonempty, hok.server, ?_⟩
  intro p hp
  obtain ⟨u1, u2, u3⟩ := hok.uris p hp
  obtain ⟨fs, h3, h4⟩ := ha p hp
  refine ⟨isHttpUri_iff.mp u1, isHttpUri_iff.mp u2, isHttpUri_iff.mp u3, ?_, ?_⟩
  · intro h5
    have := hv.https _ _ _ h3 h4.says.redirectUri h5
    rcases hs.httpsListen with ⟨_, _, e⟩ | ⟨e, _⟩ | ⟨_, e⟩
    · simp [e]
    · exact absurd e this
    · simp [e]
  · intro h5 h6
    have := hv.http _ _ _ h3 h4.says.redirectUri h5 h6
    rcases hs.httpListen with ⟨_, _, e⟩ | ⟨e, _⟩ | ⟨_, e⟩
    · simp [e]
    · exact absurd e this
    · simp [e]

/-- **C44.** What the rest of the daemon relies on. -/
theorem C44_Ok {E : Env} (hl : IsHttpUri E "http://localhost/") {file : String} {c : Config}
    (h : Config.fromStr E file = .ok c) : c.Ok E := by
  obtain ⟨l, _, h2⟩ := fromStr_ok h
  exact fromAst_Ok hl h2

/-! ## C45 -/

/-- **C45 fails.** `login_hint` has no effect at all: an account with it is the same as without it. -/
theorem C45_not_used {E : Env} {n : String} {fs : List AccountField} {h : String} {a : Account}
    (hf : Account.fromFields E n (.loginHint h :: fs) = .ok a) : Account.fromFields E n fs = .ok a := by
  have h1 := fromFields_ok hf
  obtain ⟨v1, v2, v3, v4, v5, v6⟩ := h1.valid
  have hv : FieldsValid E fs := by
    refine ⟨(List.nodup_cons.mp v1).2, fun f hm => v2 f (List.mem_cons_of_mem _ hm), ?_, ?_, ?_,
      fun x hx kvs hk => v6 x (List.mem_cons_of_mem _ hx) kvs (List.mem_cons_of_mem _ hk)⟩
    · simpa [AccountField.key] using v3
    · simpa [AccountField.key] using v4
    · simpa [AccountField.key] using v5
  obtain ⟨a', ha'⟩ := fromFields_accepts n hv
  have h2 := fromFields_ok ha'
  have hs : FieldsSay fs a := by
    obtain ⟨s1, s2, s3, s4, s5, s6, s7, s8, s9, s10⟩ := h1.says
    simp [AccountField.key] at s1 s2 s3 s4 s5 s6 s7 s8 s9 s10
    refine ⟨s1, ?_, s3, ?_, ?_, ?_, ?_, ?_, ?_, s10⟩ <;> simp <;> assumption
  rw [ha', FieldsSay.unique hv.once h2.says hs (by rw [h1.name, h2.name])]

/-- **C45**, when the hint is given in `auth_uri_fields`: it is in every authorisation URL of the account. -/
theorem C45_partial {E : Env} {w : World} (hr : Reach E w) {file : String}
    (hc : Config.fromStr E file = .ok w.ls.config) {n : String} {p : PendingTok} (hp : HoldsPending w.ls n p)
    {l : List TopLevel} (hl : parseConfigText file = some l) {fs : List AccountField} (hb : lastBlock l n = some fs)
    {kvs : List (String × String)} (hf : .authUriFields kvs ∈ fs) {k v : String} (hkv : (k, v) ∈ kvs) :
    (unescapeStr k, unescapeStr v) ∈ p.url.query := by
  obtain ⟨a, base, redirect, h1, _, _, h4⟩ := C46 hr hp
  obtain ⟨l', h5, h6⟩ := fromStr_ok hc
  rw [hl] at h5
  cases h5
  have hm : (n, a) ∈ w.ls.config.accounts := mem_of_lookup h1
  obtain ⟨fs', h7, h8⟩ := (fromAst_ok h6).2.2 _ hm
  simp only at h7
  rw [hb] at h7
  cases h7
  have hq : (unescapeStr k, unescapeStr v) ∈ a.authUriFields := by
    rcases h8.says.authUriFields with ⟨kvs', m, e⟩ | ⟨m, _⟩
    · cases field_unique h8.valid.once hf m rfl
      rw [e]
      exact List.mem_map_of_mem (f := fun kv : String × String => (unescapeStr kv.1, unescapeStr kv.2)) hkv
    · exact absurd (List.mem_map_of_mem (f := AccountField.key) hf) m
  rw [h4]
  exact List.mem_append_right _ hq

/-! ## Concrete cases: the repository's tests -/

namespace Demo

/-- The URLs in the repository's tests. -/
def urlsT : List (String × Url) :=
  [("http://a.com", ⟨"http", some "a.com", none, "/", []⟩),
   ("http://a.com/", ⟨"http", some "a.com", none, "/", []⟩),
   ("http://b.com/", ⟨"http", some "b.com", none, "/", []⟩),
   ("http://d.com", ⟨"http", some "d.com", none, "/", []⟩),
   ("http://e.com", ⟨"http", some "e.com", none, "/", []⟩),
   ("https://e.com", ⟨"https", some "e.com", none, "/", []⟩),
   ("http://f.com", ⟨"http", some "f.com", none, "/", []⟩),
   ("https://c.com", ⟨"https", some "c.com", none, "/", []⟩),
   ("httpx://", ⟨"httpx", none, none, "", []⟩),
   ("ftp://blah/", ⟨"ftp", some "blah", none, "/", []⟩),
   ("http://localhost/", ⟨"http", some "localhost", none, "/", []⟩),
   ("HTTPS://localhost/", ⟨"https", some "localhost", none, "/", []⟩)]

def envT : Env := { env with parseUrl := fun s => urlsT.lookup s }

def fileT : String := "
            auth_notify_cmd = \"g\";
            auth_notify_interval = 88m;
            error_notify_cmd = \"j\";
            http_listen = \"127.0.0.1:56789\";
            transient_error_if_cmd = \"k\";
            token_event_cmd = \"q\";
            account \"x\" {
                // Mandatory fields
                auth_uri = \"http://a.com\";
                auth_uri_fields = {\"l\": \"m\", \"n\": \"o\", \"l\": \"p\"};
                client_id = \"b\";
                scopes = [\"c\", \"d\"];
                token_uri = \"http://f.com\";
                // Optional fields
                client_secret = \"h\";
                login_hint = \"i\";
                redirect_uri = \"http://e.com\";
                refresh_at_least = 43m;
                refresh_before_expiry = 42s;
                refresh_retry = 33s;
            }
        "

def confT : Config :=
  { accounts := [("x",
      { name := "x", authUri := "http://a.com", authUriFields := [("l", "m"), ("n", "o"), ("l", "p")], clientId := "b",
        clientSecret := some "h", redirectUri := "http://e.com", refreshAtLeast := some (secs (43 * 60)),
        refreshBeforeExpiry := some (secs 42), refreshRetry := some (secs 33), scopes := ["c", "d"],
        tokenUri := "http://f.com" })]
    authNotifyCmd := some "g", authNotifyInterval := secs (88 * 60), errorNotifyCmd := some "j",
    httpListen := some "127.0.0.1:56789", httpsListen := some "127.0.0.1:0", transientErrorIfCmd := some "k",
    refreshAtLeast := none, refreshBeforeExpiry := none, refreshRetry := none, tokenEventCmd := some "q" }

/-- An account block with the mandatory fields and something more. -/
def acctT (more : String) : String :=
  "account \"x\" { auth_uri = \"http://a.com\"; client_id = \"b\"; token_uri = \"http://f.com\"; " ++ more ++ " }"

/-- The same as `Config.fromStr`, which the kernel evaluates quicker: it need not decode the text. -/
theorem fromStr_chars (E : Env) (cs : List Char) : Config.fromStr E (String.ofList cs) =
    (match parseTopLevels (lexLoop cs.length cs).length (lexLoop cs.length cs) with
      | none => .error .syntaxErr
      | some opts => Config.fromAst E opts) := by
  simp only [Config.fromStr, parseConfigText, lex, String.toList_ofList]
  rfl

end Demo

open Demo in
set_option maxRecDepth 20000 in
/-- `valid_config` -/
example : Config.fromStr envT fileT = .ok confT := (fromStr_chars envT _).trans (by decide +kernel)

open Demo in
/-- `at_least_one_account`, `invalid_time`, `dup_fields` -/
example : Config.fromStr envT "" = .error .noAccounts ∧
    Config.fromStr envT "auth_notify_interval = 18446744073709551616s;" = .error .badTime ∧
    Config.fromStr envT "auth_notify_cmd = \"a\"; auth_notify_cmd = \"a\";" = .error (.dup "auth_notify_cmd") ∧
    Config.fromStr envT "auth_notify_interval = 1s; auth_notify_interval = 2s;" =
      .error (.dup "auth_notify_interval") ∧
    Config.fromStr envT "error_notify_cmd = \"a\"; error_notify_cmd = \"a\";" = .error (.dup "error_notify_cmd") ∧
    Config.fromStr envT "token_event_cmd = \"a\"; token_event_cmd = \"a\";" = .error (.dup "token_event_cmd") ∧
    Config.fromStr envT "transient_error_if_cmd = \"a\"; transient_error_if_cmd = \"b\";" =
      .error (.dup "transient_error_if_cmd") ∧
    Config.fromStr envT "http_listen = \"a\"; http_listen = \"b\";" = .error (.dup "http_listen") ∧
    Config.fromStr envT "http_listen = none; http_listen = \"a\";" = .error (.dup "http_listen") ∧
    Config.fromStr envT "https_listen = \"a\"; https_listen = \"b\";" = .error (.dup "https_listen") ∧
    Config.fromStr envT "https_listen = none; https_listen = \"a\";" = .error (.dup "https_listen") := by
  decide +kernel

open Demo in
example : Config.fromStr envT "account \"x\" { auth_uri = \"http://a.com/\"; auth_uri = \"http://b.com/\"; }" =
      .error (.dup "auth_uri") ∧
    Config.fromStr envT "account \"x\" { auth_uri_fields = {\"a\": \"b\"}; auth_uri_fields = {\"c\": \"d\"}; }" =
      .error (.dup "auth_uri_fields") ∧
    Config.fromStr envT "account \"x\" { client_id = \"a\"; client_id = \"b\"; }" = .error (.dup "client_id") ∧
    Config.fromStr envT "account \"x\" { client_secret = \"a\"; client_secret = \"b\"; }" =
      .error (.dup "client_secret") ∧
    Config.fromStr envT "account \"x\" { login_hint = \"a\"; login_hint = \"b\"; }" = .error (.dup "login_hint") ∧
    Config.fromStr envT "account \"x\" { redirect_uri = \"http://a.com/\"; redirect_uri = \"http://b.com/\"; }" =
      .error (.dup "redirect_uri") ∧
    Config.fromStr envT "account \"x\" { refresh_before_expiry = 1m; refresh_before_expiry = 2m; }" =
      .error (.dup "refresh_before_expiry") ∧
    Config.fromStr envT "account \"x\" { refresh_at_least = 1m; refresh_at_least = 2m; }" =
      .error (.dup "refresh_at_least") ∧
    Config.fromStr envT "account \"x\" { scopes = [\"a\"]; scopes = [\"b\"]; }" = .error (.dup "scopes") ∧
    Config.fromStr envT "account \"x\" { token_uri = \"http://a.com/\"; token_uri = \"http://b.com/\"; }" =
      .error (.dup "token_uri") := by decide +kernel

open Demo in
/-- `one_of_http_or_https`, `http_or_https_redirect_uris_only`, `correct_listen_for_account`, `invalid_uris`,
`mandatory_account_fields` -/
example : Config.fromStr envT ("http_listen = none; https_listen = none; " ++ acctT "") = .error .bothNone ∧
    Config.fromStr envT (acctT "redirect_uri = \"httpx://\";") = .error .notHttp ∧
    Config.fromStr envT (acctT "redirect_uri = \"ftp://blah/\";") = .error .notHttp ∧
    Config.fromStr envT ("http_listen = none; " ++ acctT "") = .error (.httpOff "x") ∧
    Config.fromStr envT ("https_listen = none; " ++ acctT "redirect_uri = \"https://c.com\";") =
      .error (.httpsOff "x") ∧
    Config.fromStr envT "account \"x\" { auth_uri = \"blah\"; }" = .error .badUri ∧
    Config.fromStr envT "account \"x\" { redirect_uri = \"blah\"; }" = .error .badUri ∧
    Config.fromStr envT "account \"x\" { token_uri = \"blah\"; }" = .error .badUri ∧
    Config.fromStr envT "account \"a\" { client_id = \"a\"; token_uri = \"http://b.com/\"; }" =
      .error (.missing "auth_uri") ∧
    Config.fromStr envT "account \"a\" { auth_uri = \"http://a.com/\"; token_uri = \"http://b.com/\"; }" =
      .error (.missing "client_id") ∧
    Config.fromStr envT "account \"a\" { auth_uri = \"http://a.com/\"; client_id = \"a\"; }" =
      .error (.missing "token_uri") ∧
    Config.fromStr envT (acctT "login_hint = \"a\"; auth_uri_fields = { \"login_hint\": \"e\" };") =
      .error .loginHintClash := by decide +kernel

open Demo in
/-- `local_overrides`, with the effective values (seconds) -/
example :
    let eff := fun f => (Config.fromStr envT f).toOption.map fun c => c.accounts.map fun p =>
      (p.2.effRefreshAtLeast c, p.2.effRefreshBeforeExpiry c, p.2.effRefreshRetry c)
    let g := "refresh_at_least = 1s; refresh_before_expiry = 2s; refresh_retry = 3s;"
    let l := "refresh_at_least = 4s; refresh_before_expiry = 5s; refresh_retry = 6s;"
    eff (acctT "") = some [(secs 5400, secs 90, secs 40)] ∧
    eff (g ++ acctT "") = some [(secs 1, secs 2, secs 3)] ∧
    eff (acctT l) = some [(secs 4, secs 5, secs 6)] ∧
    eff (g ++ acctT l) = some [(secs 4, secs 5, secs 6)] := by decide +kernel

open Demo in
set_option maxRecDepth 20000 in
/-- The daemon of the other examples has a configuration which can be written, with an `auth_uri_fields`. -/
example : Config.fromStr env ("auth_notify_cmd = \"notify\"; http_listen = \"127.0.0.1:8080\"; https_listen = none;
      transient_error_if_cmd = \"nc -z host 80\"; token_event_cmd = \"ev\"; // etc.
      account \"a\" { auth_uri = \"https://as/auth\"; auth_uri_fields = { \"prompt\": \"consent\" };
        client_id = \"id\"; client_secret = \"sec\"; scopes = [\"s1\", \"s2\"]; token_uri = \"https://ts/token\"; }
      account \"b b\" { auth_uri = \"https://as/auth\"; auth_uri_fields = { \"prompt\": \"consent\" };
        client_id = \"id\"; client_secret = \"sec\"; scopes = [\"s1\", \"s2\"]; token_uri = \"https://ts2/token\"; }") =
    .ok conf := (fromStr_chars env _).trans (by decide +kernel)

/-! ## Where the properties fail -/

open Demo in
/-- **C43 fails** for accounts: of two blocks for the same account the first one is silently ignored. -/
theorem C43_not : ∃ (E : Env) (file : String) (l : List TopLevel) (c : Config),
    parseConfigText file = some l ∧ Config.fromStr E file = .ok c ∧ ¬ ((acctBlocks l).map Prod.fst).Nodup ∧
      c.accounts.map (fun p => p.2.clientSecret) = [some "second"] :=
  ⟨envT, acctT "client_secret = \"first\";" ++ acctT "client_secret = \"second\";",
    (parseConfigText (acctT "client_secret = \"first\";" ++ acctT "client_secret = \"second\";")).getD [],
    ((Config.fromStr envT (acctT "client_secret = \"first\";" ++ acctT "client_secret = \"second\";")).toOption).getD
      default, by decide +kernel⟩

open Demo in
/-- **C44 fails**: the scheme of a redirect URI is case insensitive, but the check is not. -/
theorem C44_not : ∃ (E : Env) (file : String) (c : Config) (a : Account) (u : Url),
    Config.fromStr E file = .ok c ∧ ("x", a) ∈ c.accounts ∧ E.parseUrl a.redirectUri = some u ∧ u.scheme = "https" ∧
      c.httpsListen = none :=
  ⟨envT, "https_listen = none; " ++ acctT "redirect_uri = \"HTTPS://localhost/\";",
    ((Config.fromStr envT ("https_listen = none; " ++ acctT "redirect_uri = \"HTTPS://localhost/\";")).toOption).getD
      default,
    { name := "x", authUri := "http://a.com", authUriFields := [], clientId := "b", clientSecret := none,
      redirectUri := "HTTPS://localhost/", refreshAtLeast := none, refreshBeforeExpiry := none, refreshRetry := none,
      scopes := [], tokenUri := "http://f.com" },
    ⟨"https", some "localhost", none, "/", []⟩, by decide +kernel⟩

open Demo in
/-- **C45 fails**: a `login_hint` is accepted, and not there. -/
theorem C45_not : ∃ (E : Env) (file : String) (c : Config), Config.fromStr E file = .ok c ∧
    parseConfigText file = some [.account "\"x\"" [.authUri "\"http://a.com\"", .clientId "\"b\"",
      .tokenUri "\"http://f.com\"", .loginHint "\"me\""]] ∧
    c.accounts.map (fun p => p.2.authUriFields) = [[]] :=
  ⟨envT, acctT "login_hint = \"me\";",
    ((Config.fromStr envT (acctT "login_hint = \"me\";")).toOption).getD default, by decide +kernel⟩

end Pizauth
