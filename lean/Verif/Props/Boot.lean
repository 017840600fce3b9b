import Verif.Spec.Boot
import Verif.Props.Config
import Verif.Props.Info
import Verif.Proof.Lineage
import Verif.Props.Demo

/-!
# C106: starting a server
-/

namespace Pizauth

variable {E : Env} {M : Machine} {c : Config} {now : Instant} {wall : SysTime} {w : World}

/-- What a server which has started knows. -/
theorem serverBoot_ok (h : serverBoot M c now wall = .ok w) :
    ∃ S, w = World.init c S now wall ∧
      (match c.httpListen with | none => S.httpPort = none | some l => ∃ p, M.bindHttp l = .ok p ∧ S.httpPort = some p) ∧
      (match c.httpsListen with
       | none => S.httpsPort = none ∧ S.httpsPubKey = none
       | some l => ∃ p k, M.certify (certNames M) = .ok k ∧ M.bindHttps l = .ok p ∧ M.tls k = .ok () ∧ S.httpsPort = some p ∧
          S.httpsPubKey = some (Info.pubKeyText k)) ∧ M.bindUnix = .ok () := by
  unfold serverBoot at h
  cases h1 : httpServerSetup M c with
  | error e => rw [h1] at h; cases h
  | ok p =>
    rw [h1] at h
    cases h2 : httpsServerSetup M c with
    | error e => rw [h2] at h; cases h
    | ok q =>
      rw [h2] at h
      have hp : match c.httpListen with | none => p = none | some l => ∃ p', M.bindHttp l = .ok p' ∧ p = some p' := by
        unfold httpServerSetup at h1
        cases hl : c.httpListen with
        | none => rw [hl] at h1; cases h1; rfl
        | some l =>
          simp only [hl] at h1
          cases hb : M.bindHttp l with
          | error e => rw [hb] at h1; cases h1
          | ok x => rw [hb] at h1; cases h1; exact ⟨x, hb, rfl⟩
      have hq : match c.httpsListen with
          | none => q = none
          | some l => ∃ x k, M.certify (certNames M) = .ok k ∧ M.bindHttps l = .ok x ∧ q = some (x, k) := by
        unfold httpsServerSetup at h2
        cases hl : c.httpsListen with
        | none => rw [hl] at h2; cases h2; rfl
        | some l =>
          simp only [hl] at h2
          cases hk : M.certify (certNames M) with
          | error e => rw [hk] at h2; cases h2
          | ok k =>
            cases hb : M.bindHttps l with
            | error e => rw [hk, hb] at h2; cases h2
            | ok x => rw [hk, hb] at h2; cases h2; exact ⟨x, k, rfl, hb, rfl⟩
      cases hu : M.bindUnix with
      | error e =>
        rw [hu] at h
        cases q with
        | none => cases h
        | some y =>
          obtain ⟨x, k⟩ := y
          cases ht : M.tls k <;> simp [bind, Except.bind, ht] at h
      | ok u =>
        rw [hu] at h
        cases q with
        | none =>
          refine ⟨{ httpPort := p, httpsPort := none, httpsPubKey := none }, ?_, hp, ?_, by cases u; rfl⟩
          · cases h; rfl
          · cases hl : c.httpsListen with
            | none => exact ⟨rfl, rfl⟩
            | some l => simp only [hl] at hq; obtain ⟨_, _, _, _, hq⟩ := hq; cases hq
        | some y =>
          obtain ⟨x, k⟩ := y
          cases ht : M.tls k with
          | error e => simp [bind, Except.bind, ht] at h
          | ok v =>
            refine ⟨{ httpPort := p, httpsPort := some x, httpsPubKey := some (Info.pubKeyText k) }, ?_, hp, ?_, by cases u; rfl⟩
            · simp [bind, Except.bind, ht, pure, Except.pure] at h; exact h.symm
            · cases hl : c.httpsListen with
              | none => simp only [hl] at hq; cases hq
              | some l =>
                simp only [hl] at hq
                obtain ⟨x', k', h3, h4, hq⟩ := hq
                cases hq
                exact ⟨x, k, h3, h4, by rw [ht], rfl, rfl⟩

theorem serverBoot_init (hc : c.Ok E) (h : serverBoot M c now wall = .ok w) : IsInit E w := by
  obtain ⟨S, rfl, h1, h2, -⟩ := serverBoot_ok h
  refine ⟨hc, rfl, ?_, ?_, fun _ => rfl, rfl, rfl, rfl, rfl, rfl, rfl, rfl, rfl, rfl, rfl⟩
  · show S.httpPort.isSome = c.httpListen.isSome
    cases hl : c.httpListen with
    | none => simp only [hl] at h1; rw [h1]; rfl
    | some l => simp only [hl] at h1; obtain ⟨p, -, h1⟩ := h1; rw [h1]; rfl
  · show S.httpsPort.isSome = c.httpsListen.isSome
    cases hl : c.httpsListen with
    | none => simp only [hl] at h2; rw [h2.1]; rfl
    | some l => simp only [hl] at h2; obtain ⟨p, k, -, -, -, h2, -⟩ := h2; rw [h2]; rfl

theorem hexText : ∀ k : Bytes, HexText k (Info.pubKeyText k).toList := by
  have hd : ∀ n : Fin 16, HexDigit n.val (if n.val < 10 then Char.ofNat (48 + n.val) else Char.ofNat (55 + n.val)) := by
    unfold HexDigit; decide +kernel
  intro k
  induction k with
  | nil => exact .nil
  | cons b k ih =>
    have hb := b.toNat_lt
    have h1 := hd ⟨b.toNat / 16, by omega⟩
    have h2 := hd ⟨b.toNat % 16, by omega⟩
    cases k with
    | nil =>
      have : (Info.pubKeyText [b]).toList = Info.hexByte b := by
        unfold Info.pubKeyText; rw [intercalate_toList]; simp
      rw [this]
      exact .one h1 h2
    | cons b' k =>
      have : (Info.pubKeyText (b :: b' :: k)).toList = Info.hexByte b ++ ':' :: (Info.pubKeyText (b' :: k)).toList := by
        unfold Info.pubKeyText; rw [intercalate_toList, intercalate_toList]; simp
      rw [this]
      exact .cons h1 h2 ih

/-- C106: a server which starts with the configuration file `file` has this configuration and no tokens, and everything
which is shown about states that can be reached is true of it from then on. -/
theorem C106 {file : String} (hu : IsHttpUri E "http://localhost/") (hf : Config.fromStr E file = .ok c)
    (h : serverBoot M c now wall = .ok w) :
    IsInit E w ∧ w.ls.config = c ∧ (∀ e ∈ w.ls.details, e.ts = .empty) ∧ ∀ w', Steps E w w' → Reach E w' := by
  have hi := serverBoot_init (C44_Ok hu hf) h
  refine ⟨hi, ?_, ?_, fun w' hs => hs.reach (.init hi)⟩
  · obtain ⟨S, rfl, -⟩ := serverBoot_ok h; rfl
  · obtain ⟨S, rfl, -⟩ := serverBoot_ok h
    exact fun e he => (Pizauth.LockedState.newDetails_mem _ _ e he).2.2

/-- C106: it says at which ports it listens: those which it was given for the configured addresses. -/
theorem C106_ports (h : serverBoot M c now wall = .ok w) :
    (c.httpListen = none → w.st.httpPort = none) ∧
    (∀ l, c.httpListen = some l → ∃ p, M.bindHttp l = .ok p ∧ w.st.httpPort = some p) ∧
    (c.httpsListen = none → w.st.httpsPort = none) ∧
    ∀ l, c.httpsListen = some l → ∃ p, M.bindHttps l = .ok p ∧ w.st.httpsPort = some p := by
  obtain ⟨S, rfl, h1, h2, -⟩ := serverBoot_ok h
  refine ⟨fun hl => ?_, fun l hl => ?_, fun hl => ?_, fun l hl => ?_⟩
  · simp only [hl] at h1; exact h1
  · simp only [hl] at h1; exact h1
  · simp only [hl] at h2; exact h2.1
  · simp only [hl] at h2
    obtain ⟨p, k, -, h3, -, h4, -⟩ := h2
    exact ⟨p, h3, h4⟩

/-- C106: the certificate is for the machine itself, under any of its names; there is one if HTTPS is served, and `info`
shows its public key. -/
theorem C106_key (h : serverBoot M c now wall = .ok w) :
    (c.httpsListen = none → w.st.httpsPubKey = none) ∧
    ∀ l, c.httpsListen = some l → ∃ k t,
      M.certify (["localhost", "127.0.0.1", "::1"] ++ M.hostname.toList) = .ok k ∧ HexText k t ∧
      w.st.httpsPubKey = some (String.ofList t) := by
  obtain ⟨S, rfl, h1, h2, -⟩ := serverBoot_ok h
  refine ⟨fun hl => ?_, fun l hl => ?_⟩
  · simp only [hl] at h2; exact h2.2
  · simp only [hl] at h2
    obtain ⟨p, k, h3, -, -, -, h4⟩ := h2
    exact ⟨k, (Info.pubKeyText k).toList, h3, hexText k, by rw [String.ofList_toList]; exact h4⟩

/-- C106: starting fails only if the addresses cannot be used or the certificate cannot be made; this is what is said. -/
theorem C106_fails {e : String} (h : serverBoot M c now wall = .error e) : BootError M c e := by
  unfold serverBoot at h
  cases h1 : httpServerSetup M c with
  | error e' =>
    rw [h1] at h; cases h
    unfold httpServerSetup at h1
    cases hl : c.httpListen with
    | none => rw [hl] at h1; cases h1
    | some l =>
      simp only [hl] at h1
      cases hb : M.bindHttp l with
      | error e => rw [hb] at h1; cases h1; exact .http hl hb
      | ok x => rw [hb] at h1; cases h1
  | ok p =>
    rw [h1] at h
    cases h2 : httpsServerSetup M c with
    | error e' =>
      rw [h2] at h; cases h
      unfold httpsServerSetup at h2
      cases hl : c.httpsListen with
      | none => rw [hl] at h2; cases h2
      | some l =>
        simp only [hl] at h2
        cases hk : M.certify (certNames M) with
        | error e => rw [hk] at h2; cases h2; exact .cert hl hk
        | ok k =>
          cases hb : M.bindHttps l with
          | error e => rw [hk, hb] at h2; cases h2; exact .https hl hb
          | ok x => rw [hk, hb] at h2; cases h2
    | ok q =>
      rw [h2] at h
      cases q with
      | none =>
        cases hu : M.bindUnix with
        | error e => rw [hu] at h; cases h; exact .unix hu
        | ok u => rw [hu] at h; cases h
      | some y =>
        obtain ⟨x, k⟩ := y
        cases ht : M.tls k with
        | error e' =>
          simp [bind, Except.bind, ht] at h
          subst h
          unfold httpsServerSetup at h2
          cases hl : c.httpsListen with
          | none => rw [hl] at h2; cases h2
          | some l =>
            simp only [hl] at h2
            cases hk : M.certify (certNames M) with
            | error e => rw [hk] at h2; cases h2
            | ok k' =>
              cases hb : M.bindHttps l with
              | error e => rw [hk, hb] at h2; cases h2
              | ok x => rw [hk, hb] at h2; cases h2; exact .tls hl hk ht
        | ok v =>
          cases hu : M.bindUnix with
          | error e' => simp [bind, Except.bind, ht, hu] at h; subst h; exact .unix hu
          | ok u => simp [bind, Except.bind, ht, hu, pure, Except.pure] at h

/-- C106: and in all these cases it does fail. -/
theorem C106_fails' {e : String} (h : BootError M c e) : ∃ e', serverBoot M c now wall = .error e' := by
  cases hb : serverBoot M c now wall with
  | error e' => exact ⟨e', rfl⟩
  | ok w =>
    exfalso
    obtain ⟨S, -, h1, h2, h3⟩ := serverBoot_ok hb
    cases h with
    | http hl he => simp only [hl] at h1; obtain ⟨p, h1, -⟩ := h1; rw [h1] at he; cases he
    | cert hl he =>
      simp only [hl, certNames] at h2; obtain ⟨p, k, h2, -⟩ := h2; rw [h2] at he; cases he
    | https hl he => simp only [hl] at h2; obtain ⟨p, k, -, h2, -⟩ := h2; rw [h2] at he; cases he
    | tls hl hk he =>
      simp only [hl, certNames] at h2; obtain ⟨p, k, h4, -, h2, -⟩ := h2
      rw [h4] at hk; cases hk; rw [h2] at he; cases he
    | unix he => rw [h3] at he; cases he

theorem ExecR.obs_not_httpReq {S : Static} {now : Instant} {wall : SysTime} {ls : LockedState} {tid : Nat} {op : Op}
    {inp : Input} {f : Eff} {i : Nat} {b : Bytes} {sec : Bool} (hx : ExecR E S now wall ls tid op inp f) :
    .httpReq i b sec ∉ f.obs := by
  intro h
  cases hx <;> simp at h

/-- C106: callbacks are accepted only by servers which were configured when the process was started, whatever
configurations are loaded later. -/
theorem C106_off (hc : c.Ok E) (h : serverBoot M c now wall = .ok w) {w' : World} (hs : Steps E w w') {t : Instant}
    {i : Nat} {b : Bytes} {sec : Bool} (hm : (t, .httpReq i b sec) ∈ w'.log) :
    if sec then c.httpsListen ≠ none else c.httpListen ≠ none := by
  have hi := serverBoot_init hc h
  have hr : Reach E w := .init hi
  have hcfg : w.ls.config = c := by obtain ⟨S, rfl, -⟩ := serverBoot_ok h; rfl
  have key : ∀ w', Steps E w w' → (∀ t i b sec, (t, Obs.httpReq i b sec) ∈ w'.log →
      (if sec then w.st.httpsPort else w.st.httpPort).isSome) := by
    refine Steps.induct hr (P := fun w' => ∀ t i b sec, (t, Obs.httpReq i b sec) ∈ w'.log →
      (if sec then w.st.httpsPort else w.st.httpPort).isSome) ?_ ?_
    · intro t i b sec hm; rw [hi.log] at hm; cases hm
    · intro w1 a w2 hs1 hr1 _ _ ih hs2 t i b sec hm
      obtain ⟨l, hl, hn⟩ := hs2.log_new
      rw [hl] at hm
      rcases List.mem_append.mp hm with hm | hm
      · have := (hn _ hm).2
        cases this
        · cases hs2
          rename_i hp
          rw [hs1.st hr] at hp
          exact hp
        · rename_i hx ho
          exact absurd ho hx.obs_not_httpReq
      · exact ih t i b sec hm
  have := key w' hs t i b sec hm
  cases sec with
  | false =>
    simp only [Bool.false_eq_true, if_false] at this ⊢
    rw [hi.httpPort, hcfg] at this
    intro hn; rw [hn] at this; cases this
  | true =>
    simp only [if_true] at this ⊢
    rw [hi.httpsPort, hcfg] at this
    intro hn; rw [hn] at this; cases this

/-- C106: and these accept every callback at any time. -/
theorem C106_on (hc : c.Ok E) (h : serverBoot M c now wall = .ok w) {w' : World} (hs : Steps E w w')
    (hp : w'.proc = .running) (b : Bytes) {sec : Bool} (hl : if sec then c.httpsListen ≠ none else c.httpListen ≠ none) :
    ∃ w2, w'.step E (.http b sec) = some w2 ∧ w2.log = (w'.now, .httpReq w'.nextTid b sec) :: w'.log ∧
      w2.threads w'.nextTid = [.http b sec] := by
  have hi := serverBoot_init hc h
  have hcfg : w.ls.config = c := by obtain ⟨S, rfl, -⟩ := serverBoot_ok h; rfl
  have hq : (if sec then w'.st.httpsPort else w'.st.httpPort).isSome = true := by
    rw [hs.st (.init hi)]
    cases sec with
    | false =>
      simp only [Bool.false_eq_true, if_false] at hl ⊢
      rw [hi.httpPort, hcfg]; exact Option.isSome_iff_ne_none.mpr hl
    | true =>
      simp only [if_true] at hl ⊢
      rw [hi.httpsPort, hcfg]; exact Option.isSome_iff_ne_none.mpr hl
  simp only [World.step, hp, hq, if_true]
  exact ⟨_, rfl, by simp [World.observe], by simp [World.observe, setThread]⟩

/-- C106: what `info` prints, at any time: the ports at which this server listens, and its public key. -/
theorem C106_info (hc : c.Ok E) (h : serverBoot M c now wall = .ok w) {w1 w2 : World} (hs : Steps E w w1) {buf : Bytes}
    (hx : Executes E w1 buf w2) (hp : parseReq buf = .info) (prog cache conf : String) :
    ∃ b, w2.threads 0 = [.reply b, .close] ∧ Info.run false prog cache (.ok conf) (.answer b) =
      some ⟨utf8 (infoLines prog cache conf (some (w.st.httpPort, w.st.httpsPort, w.st.httpsPubKey))), none, 0⟩ := by
  have h1 := C69 hx hp
  rw [hs.st (.init (serverBoot_init hc h))] at h1
  refine ⟨_, by rw [h1]; simp [setThread], C86_partial ?_ prog cache conf⟩
  intro k hk
  cases hl : c.httpsListen with
  | none => rw [(C106_key h).1 hl] at hk; cases hk
  | some l =>
    obtain ⟨b, t, -, ht, he⟩ := (C106_key h).2 l hl
    rw [he] at hk
    cases hk
    exact ⟨b, by rw [String.toList_ofList]; exact ht⟩

namespace Demo

def machine : Machine where
  bindHttp l := if l = "127.0.0.1:8080" then .ok 8080 else .error "Address already in use (os error 98)"
  bindHttps l := if l = "127.0.0.1:0" then .ok 40001 else .error "Address already in use (os error 98)"
  hostname := some "box"
  certify names := if "box" ∈ names then .ok [4, 171] else .error "no certificate"
  tls _ := .ok ()
  bindUnix := .ok ()

/-- The state in which all the other examples start. -/
example : (serverBoot machine conf 0 1700000000000000000).toOption.map (fun w => (w.st, w.ls.config == conf)) =
    some (static, true) := by decide +kernel

/-- With HTTPS. -/
example : (serverBoot machine { conf with httpsListen := some "127.0.0.1:0" } 0 0).toOption.map (·.st) =
    some ⟨some 8080, some 40001, some "04:AB"⟩ := by decide +kernel

/-- The port is taken. -/
example : (serverBoot machine { conf with httpListen := some "127.0.0.1:80" } 0 0).toOption.isNone = true := by decide +kernel

end Demo

end Pizauth
