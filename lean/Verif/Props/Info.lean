import Verif.Proof.Info
import Verif.Spec.Info
import Verif.Props.Requests

/-!
# C86: what `pizauth info` prints
-/

namespace Pizauth
open JsonSpec Cli

/-! ## The server's answer -/

theorem portWord_plain (p : Option Nat) : ∀ c ∈ (portWord p).toList, 32 ≤ c.toNat ∧ c ≠ '"' ∧ c ≠ '\\' := by
  cases p with
  | none => decide +kernel
  | some n =>
    intro c hc
    have := Json.dig_le (Json.int_digits (Json.toString_nat n).1 c hc)
    refine ⟨by omega, ?_, ?_⟩ <;> (rintro rfl; exact absurd this (by decide))

theorem intercalate_toList (l : List String) : (":".intercalate l).toList = ((l.map String.toList).intersperse [':']).flatten := by
  rw [String.toList_intercalate]
  rfl

theorem hexDigit_plain {n : Nat} {c : Char} (h : HexDigit n c) : 32 ≤ c.toNat ∧ c ≠ '"' ∧ c ≠ '\\' := by
  have : ∀ c ∈ "0123456789ABCDEF".toList, 32 ≤ c.toNat ∧ c ≠ '"' ∧ c ≠ '\\' := by decide +kernel
  exact this c (List.mem_of_getElem? h)

theorem hexText_plain {k : Bytes} {t : List Char} (h : HexText k t) : ∀ c ∈ t, 32 ≤ c.toNat ∧ c ≠ '"' ∧ c ≠ '\\' := by
  induction h with
  | nil => nofun
  | one h1 h2 =>
    intro c hc
    simp only [List.mem_cons, List.not_mem_nil, or_false] at hc
    rcases hc with rfl | rfl
    · exact hexDigit_plain h1
    · exact hexDigit_plain h2
  | cons h1 h2 _ ih =>
    intro c hc
    simp only [List.mem_cons] at hc
    rcases hc with rfl | rfl | rfl | hc
    · exact hexDigit_plain h1
    · exact hexDigit_plain h2
    · decide
    · exact ih c hc

variable {http https : Option Nat} {key : Option String}

/-- The answer to `info` is a JSON text for `serverValue`. -/
theorem infoText_text (hk : ∀ k, key = some k → ∃ b, HexText b k.toList) :
    IsText 127 (serverValue http https key) (infoText http https key).toList := by
  have hq : ∀ {s : String}, (∀ c ∈ s.toList, 32 ≤ c.toNat ∧ c ≠ '"' ∧ c ≠ '\\') →
      Json.quoted s.toList = '"' :: (s.toList ++ ['"']) := fun h => Json.quoted_plain h
  have hp := hq (portWord_plain http)
  have hps := hq (portWord_plain https)
  have ht : ∀ ks : String, ("{\"http_port\":\"" ++ portWord http ++ "\",\"https_port\":\"" ++ portWord https ++ "\"" ++ ks).toList =
      '{' :: (Json.quoted "http_port".toList ++ ':' :: (Json.quoted (portWord http).toList ++ ',' ::
        (Json.quoted "https_port".toList ++ ':' :: (Json.quoted (portWord https).toList ++ ks.toList)))) := by
    intro ks
    rw [hp, hps]
    simp [Json.quoted, Json.escaped]
  refine ⟨[], (infoText http https key).toList, [], Json.Ws.nil, ?_, Json.Ws.nil, by simp⟩
  have h1 := Json.quoted_text (d := 126) (portWord http).toList
  have h2 := Json.quoted_text (d := 126) (portWord https).toList
  cases key with
  | none =>
    have h := Json.objText_text (d := 126) (z := [("http_port".toList, (jstr (portWord http), Json.quoted (portWord http).toList)),
      ("https_port".toList, (jstr (portWord https), Json.quoted (portWord https).toList))]) (List.cons_ne_nil _ _) (by
        intro x hx
        simp only [List.mem_cons, List.not_mem_nil, or_false] at hx
        rcases hx with rfl | rfl
        · exact h1
        · exact h2)
    unfold infoText
    dsimp only
    rw [String.append_assoc, ht]
    simpa [Json.objText, serverValue] using h
  | some k =>
    obtain ⟨b, hb⟩ := hk k rfl
    have hpk := hq (hexText_plain hb)
    have h3 := Json.quoted_text (d := 126) k.toList
    have h := Json.objText_text (d := 126) (z := [("http_port".toList, (jstr (portWord http), Json.quoted (portWord http).toList)),
      ("https_port".toList, (jstr (portWord https), Json.quoted (portWord https).toList)),
      ("https_pub_key".toList, (jstr k, Json.quoted k.toList))]) (List.cons_ne_nil _ _) (by
        intro x hx
        simp only [List.mem_cons, List.not_mem_nil, or_false] at hx
        rcases hx with rfl | rfl | rfl
        · exact h1
        · exact h2
        · exact h3)
    have e2 : (",\"https_pub_key\":\"" ++ k ++ "\"" ++ "}").toList =
        ',' :: (Json.quoted "https_pub_key".toList ++ ':' :: (Json.quoted k.toList ++ ['}'])) := by
      rw [hpk]
      simp [Json.quoted, Json.escaped]
    unfold infoText
    dsimp only
    rw [String.append_assoc, ht, e2]
    simpa [Json.objText, serverValue] using h

theorem serverInfo_answer (hk : ∀ k, key = some k → ∃ b, HexText b k.toList) :
    Info.serverInfo (.answer (utf8 (infoText http https key))) = some (serverValue http https key) := by
  simp only [Info.serverInfo, fromUtf8_utf8]
  exact Json.fromStr_iff.mpr (infoText_text hk)

/-- **C86.** What `info` says if a server runs (whose answers are those of `C69`, with a key as in `C106_key`). -/
theorem C86_partial (hk : ∀ k, key = some k → ∃ b, HexText b k.toList) (prog cache conf : String) :
    Info.run false prog cache (.ok conf) (.answer (utf8 (infoText http https key))) =
      some ⟨utf8 (infoLines prog cache conf (some (http, https, key))), none, 0⟩ := by
  unfold Info.run
  rw [serverInfo_answer hk]
  have h1 : ∀ {k : Option String}, ((serverValue http https k).get "http_port").bind Json.asStr = some (portWord http) := by
    intro k; cases k <;> simp [serverValue, Json.get, List.lookup, jstr, Json.asStr]
  have h2 : ∀ {k : Option String}, ((serverValue http https k).get "https_port").bind Json.asStr = some (portWord https) := by
    intro k; cases k <;> simp [serverValue, Json.get, List.lookup, jstr, Json.asStr]
  simp only [Info.textOut, h1, h2, Bool.false_eq_true, if_false]
  cases key with
  | none =>
    simp [serverValue, Json.get, List.lookup, infoLines, Info.version, String.append_assoc]
    exact congrArg utf8 (String.toList_inj.mp (by simp))
  | some k =>
    simp [serverValue, Json.get, jstr, Json.asStr, infoLines, Info.version, String.append_assoc]
    exact congrArg utf8 (String.toList_inj.mp (by simp))

theorem serverInfo_none {conn : Conn} (h : ∀ s j, conn = .answer (utf8 s) → ¬ IsText 127 j s.toList) :
    Info.serverInfo conn = none := by
  unfold Info.serverInfo
  split
  · rename_i b
    split
    · rename_i s hs
      cases hj : Json.fromStr s.toList with
      | none => rfl
      | some j => exact absurd (Json.fromStr_iff.mp hj) (h s j (by rw [utf8_of_fromUtf8 hs]))
    · rfl
  · rfl

/-- **C86.** If no server answers with JSON, `info` says that none is running. -/
theorem C86_stopped {prog cache conf : String} {conn : Conn}
    (h : ∀ s j, conn = .answer (utf8 s) → ¬ IsText 127 j s.toList) :
    Info.run false prog cache (.ok conf) conn = some ⟨utf8 (infoLines prog cache conf none), none, 0⟩ := by
  unfold Info.run Info.textOut
  rw [serverInfo_none h]
  simp [infoLines, Info.version, String.append_assoc]
  try exact congrArg utf8 (String.toList_inj.mp (by simp))

theorem canon_jsonOut (prog cache conf : String) (sv : Option Json) :
    (Info.jsonOut prog cache conf sv).canon = infoValue prog cache conf (sv.map Json.canon) := by
  cases sv <;> rfl

theorem nat_two {d : Nat} : Text d (.val (.nat 2)) ['2'] :=
  Text.nat (t := ['2']) (.inr ⟨⟨nofun, by intro c hc; rw [List.mem_singleton] at hc; subst hc; decide⟩, by decide⟩) (by decide)

theorem with_texts {d : Nat} {kvs : List (List Char × Json)} (h : ∀ kv ∈ kvs, ∃ t, Text d (.val kv.2) t) :
    ∃ z : List (List Char × (Json × List Char)), (∀ x ∈ z, Text d (.val x.2.1) x.2.2) ∧
      kvs = z.map fun x => (x.1, x.2.1) := by
  induction kvs with
  | nil => exact ⟨[], nofun, rfl⟩
  | cons kv kvs ih =>
    obtain ⟨t, ht⟩ := h kv (List.mem_cons_self ..)
    obtain ⟨z, hz, rfl⟩ := ih fun kv' h' => h kv' (List.mem_cons_of_mem _ h')
    refine ⟨(kv.1, (kv.2, t)) :: z, ?_, rfl⟩
    intro x hx
    rcases List.mem_cons.mp hx with rfl | hx
    · exact ht
    · exact hz x hx

theorem info_json (prog cache conf : String) (conn : Conn) :
    ∃ s, Info.run true prog cache (.ok conf) conn = some ⟨utf8 (s ++ "\n"), none, 0⟩ ∧
      IsText 128 (infoValue prog cache conf ((Info.serverInfo conn).map Json.canon)) s.toList := by
  refine ⟨String.ofList (Info.jsonOut prog cache conf (Info.serverInfo conn)).print, ?_, ?_⟩
  · unfold Info.run
    simp only [if_true, Option.some.injEq, Exit.mk.injEq, and_true]
    exact congrArg utf8 (String.toList_inj.mp (by simp))
  rw [String.toList_ofList, ← canon_jsonOut]
  refine ⟨[], _, [], Json.Ws.nil, ?_, Json.Ws.nil, by simp; rfl⟩
  have hx : ∀ x, Info.serverInfo conn = some x → ∃ t, Text 127 (.val x) t := by
    intro x hx
    unfold Info.serverInfo at hx
    split at hx
    · split at hx
      · obtain ⟨_, t, _, _, ht, _⟩ := Json.fromStr_iff.mp hx
        exact ⟨t, ht⟩
      · cases hx
    · cases hx
  have hq : ∀ s : String, Text 127 (.val (.str s.toList)) (Json.quoted s.toList) := fun s => Json.quoted_text _
  have main : ∃ kvs, Info.jsonOut prog cache conf (Info.serverInfo conn) = .obj kvs ∧ kvs ≠ [] ∧
      ∀ kv ∈ kvs, ∃ t, Text 127 (.val kv.2) t := by
    cases hsv : Info.serverInfo conn with
    | none =>
      refine ⟨_, rfl, nofun, ?_⟩
      intro x hx
      simp only [List.map_cons, List.map_nil, List.zip_cons_cons, List.zip_nil_left, List.append_eq, List.cons_append,
        List.nil_append, List.mem_cons, List.not_mem_nil, or_false] at hx
      rcases hx with rfl | rfl | rfl | rfl | rfl | rfl
      all_goals first | exact ⟨_, hq _⟩ | exact ⟨_, nat_two⟩ | exact ⟨_, .false⟩
    | some j =>
      obtain ⟨t, ht⟩ := hx j hsv
      refine ⟨_, rfl, nofun, ?_⟩
      intro x hx
      simp only [List.map_cons, List.map_nil, List.zip_cons_cons, List.zip_nil_left, List.append_eq, List.cons_append,
        List.nil_append, List.mem_cons, List.not_mem_nil, or_false] at hx
      rcases hx with rfl | rfl | rfl | rfl | rfl | rfl | rfl
      all_goals first | exact ⟨_, hq _⟩ | exact ⟨_, nat_two⟩ | exact ⟨_, .true⟩ | exact ⟨_, ht⟩
  obtain ⟨kvs, he, hne, h⟩ := main
  obtain ⟨z, hz, rfl⟩ := with_texts h
  rw [he]
  exact Json.print_text (Json.objText_text (fun h => hne (by rw [h]; rfl)) hz)

/-- **C86.** If the answer of the server is JSON, `info -j` prints a JSON text of which it is part. -/
theorem C86_json (prog cache conf : String) {s : String} {j : Json} (h : IsText 127 j s.toList) :
    ∃ t, Info.run true prog cache (.ok conf) (.answer (utf8 s)) = some ⟨utf8 (t ++ "\n"), none, 0⟩ ∧
      IsText 128 (infoValue prog cache conf (some j.canon)) t.toList := by
  obtain ⟨t, h1, h2⟩ := info_json prog cache conf (.answer (utf8 s))
  refine ⟨t, h1, ?_⟩
  have : Info.serverInfo (.answer (utf8 s)) = some j := by
    simp only [Info.serverInfo, fromUtf8_utf8]
    exact Json.fromStr_iff.mpr h
  rw [this] at h2
  exact h2

/-- **C86.** And if no server answers with JSON, a JSON text which says that none is running. -/
theorem C86_json_stopped (prog cache conf : String) {conn : Conn}
    (h : ∀ s j, conn = .answer (utf8 s) → ¬ IsText 127 j s.toList) :
    ∃ t, Info.run true prog cache (.ok conf) conn = some ⟨utf8 (t ++ "\n"), none, 0⟩ ∧
      IsText 128 (infoValue prog cache conf none) t.toList := by
  obtain ⟨t, h1, h2⟩ := info_json prog cache conf conn
  rw [serverInfo_none h] at h2
  exact ⟨t, h1, h2⟩

/-- **C86.** With a server of the same version, this is its answer. -/
theorem C86_running (hk : ∀ k, key = some k → ∃ b, HexText b k.toList) (prog cache conf : String) :
    ∃ t, Info.run true prog cache (.ok conf) (.answer (utf8 (infoText http https key))) = some ⟨utf8 (t ++ "\n"), none, 0⟩ ∧
      IsText 128 (infoValue prog cache conf (some (serverValue http https key))) t.toList := by
  obtain ⟨t, h1, h2⟩ := C86_json prog cache conf (infoText_text (http := http) (https := https) hk)
  have : (serverValue http https key).canon = serverValue http https key := by
    cases key <;> rfl
  rw [this] at h2
  exact ⟨t, h1, h2⟩

/-- **C86 fails**: an answer which is not that of a server of this version (no ports, or ports which are not strings) makes
`info` crash. -/
theorem C86_not (prog cache conf : String) : ∃ s j, IsText 127 j s.toList ∧
    Info.run false prog cache (.ok conf) (.answer (utf8 s)) = none := by
  refine ⟨"{}", .obj [], Json.fromStr_iff.mp rfl, ?_⟩
  simp only [Info.run, Info.serverInfo, fromUtf8_utf8]
  rfl

/-- **C86 fails**: if there is no configuration file, `info` does not say anything about the rest. -/
theorem C86_not_conf (json : Bool) (prog cache msg : String) (conn : Conn) :
    Info.run json prog cache (.error msg) conn = some ⟨[], some msg, 1⟩ := rfl

/-! ## Concrete cases -/

example : infoText (some 80) none (some "00:AB:10") =
    "{\"http_port\":\"80\",\"https_port\":\"none\",\"https_pub_key\":\"00:AB:10\"}" := by decide +kernel

example : Info.run false "pizauth" "/run/user/1/pizauth" (.ok "/home/u/.config/pizauth.conf")
      (.answer (utf8 (infoText (some 80) none (some "00:AB:10")))) =
    some ⟨utf8 "pizauth version 1.0.7:\n  cache directory: /run/user/1/pizauth\n  config file: /home/u/.config/pizauth.conf\nserver running:\n  HTTP port: 80\n  HTTPS port: none\n  HTTPS public key: 00:AB:10\n", none, 0⟩ := by
  rw [C86_partial (fun k hk => by
    cases hk
    have d : ∀ n : Fin 16, ∀ c ∈ "0123456789ABCDEF".toList[n.val]?, HexDigit n.val c := fun n c h => h
    rw [show "00:AB:10".toList = ['0', '0', ':', 'A', 'B', ':', '1', '0'] by decide]
    exact ⟨[0, 171, 16], .cons (d 0 _ (by decide)) (d 0 _ (by decide)) (.cons (d 10 _ (by decide)) (d 11 _ (by decide))
      (.one (d 1 _ (by decide)) (d 0 _ (by decide))))⟩)]
  decide +kernel

example : Info.run true "pizauth" "/a\"b" (.ok "/c") (.answer (utf8 "{}")) =
    some ⟨utf8 "{\"cache_directory\":\"/a\\\"b\",\"config_file\":\"/c\",\"executed_as\":\"pizauth\",\"info_format_version\":2,\"pizauth_version\":\"1.0.7\",\"server_info\":{},\"server_running\":true}\n", none, 0⟩ := by
  decide +kernel

end Pizauth
